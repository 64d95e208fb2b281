import Verif.Checksum.Spec
set_option linter.unusedSimpArgs false
namespace Verif.Checksum
open Verif Verif.Handshake

/-- lookup in the tree -/
def tget (t : List (Nat × TVal)) (k : Nat) : Option TVal := AMap.get t k

def Sorted (t : List (Nat × TVal)) : Prop := t.Pairwise (fun a b => a.1 < b.1)

theorem mem_treePut {t : List (Nat × TVal)} {k : Nat} {v : TVal} {e : Nat × TVal}
    (h : e ∈ treePut t k v) : e = (k, v) ∨ e ∈ t := by
  induction t with
  | nil => simp [treePut] at h; exact .inl h
  | cons a t ih =>
    obtain ⟨k', v'⟩ := a
    simp only [treePut] at h
    split at h
    · simp at h; rcases h with h | h | h <;> simp [h]
    · split at h
      · simp at h; rcases h with h | h <;> simp [h]
      · simp only [List.mem_cons] at h
        rcases h with h | h
        · simp [h]
        · rcases ih h with h | h <;> simp [h]

theorem sorted_treePut {t : List (Nat × TVal)} (h : Sorted t) (k : Nat) (v : TVal) :
    Sorted (treePut t k v) := by
  induction t with
  | nil => simp [treePut, Sorted]
  | cons a t ih =>
    obtain ⟨k', v'⟩ := a
    unfold Sorted at h ih ⊢
    rw [List.pairwise_cons] at h
    simp only [treePut]
    split
    · rename_i hk
      rw [List.pairwise_cons, List.pairwise_cons]
      refine ⟨?_, h⟩
      intro e he
      rcases List.mem_cons.mp he with rfl | he
      · exact hk
      · have := h.1 e he; simp at this ⊢; omega
    · split
      · rename_i hk
        subst hk
        rw [List.pairwise_cons]
        exact ⟨h.1, h.2⟩
      · rw [List.pairwise_cons]
        refine ⟨?_, ih h.2⟩
        intro e he
        rcases mem_treePut he with rfl | he
        · simp; omega
        · exact h.1 e he

theorem tget_treePut {t : List (Nat × TVal)} (hs : Sorted t) (k k' : Nat) (v : TVal) :
    tget (treePut t k v) k' = if k = k' then some v else tget t k' := by
  unfold tget
  induction t with
  | nil => simp [treePut, AMap.get]
  | cons a t ih =>
    obtain ⟨j, v'⟩ := a
    unfold Sorted at hs
    rw [List.pairwise_cons] at hs
    simp only [treePut]
    split
    · simp only [AMap.get]
    · split
      · rename_i h1 h2
        subst h2
        simp only [AMap.get]
        split <;> rfl
      · rename_i h1 h2
        simp only [AMap.get, ih hs.2]
        by_cases hj : j = k'
        · subst hj; simp [h2]
        · simp [hj]

/-- Two sorted trees with the same lookups are equal. -/
theorem sorted_ext {t t' : List (Nat × TVal)} (hs : Sorted t) (hs' : Sorted t')
    (h : ∀ k, tget t k = tget t' k) : t = t' := by
  induction t generalizing t' with
  | nil =>
    cases t' with
    | nil => rfl
    | cons a t' =>
      obtain ⟨k, v⟩ := a
      have := h k
      simp [tget, AMap.get] at this
  | cons a t ih =>
    obtain ⟨k, v⟩ := a
    cases t' with
    | nil => have := h k; simp [tget, AMap.get] at this
    | cons b t' =>
      obtain ⟨k', v'⟩ := b
      unfold Sorted at hs hs'
      rw [List.pairwise_cons] at hs hs'
      have hne : ∀ (j : Nat) (x : TVal) (l : List (Nat × TVal)),
          (∀ e ∈ l, j < e.1) → ∀ i, i ≤ j → AMap.get l i = none := by
        intro j x l hl i hi
        rw [AMap.get_eq_none_iff]
        intro hm
        obtain ⟨e, he, rfl⟩ := List.mem_map.mp hm
        have := hl e he
        omega
      have hk : k = k' := by
        have h1 := h k
        have h2 := h k'
        simp only [tget, AMap.get] at h1 h2
        by_cases hlt : k < k'
        · have h3 : ¬ k' = k := by omega
          rw [if_pos trivial, if_neg h3, hne k' v' t' hs'.1 k (by omega)] at h1
          simp at h1
        · by_cases hgt : k' < k
          · rw [if_neg (show ¬ k = k' by omega), hne k v t hs.1 k' (by omega)] at h2
            simp at h2
          · omega
      subst hk
      have hv : v = v' := by
        have h1 := h k; simp [tget, AMap.get] at h1; exact h1
      subst hv
      have : t = t' := by
        apply ih hs.2 hs'.2
        intro j
        have h1 := h j
        simp only [tget, AMap.get] at h1 ⊢
        by_cases hj : k = j
        · subst hj
          rw [hne k v t hs.1 k (by omega), hne k v t' hs'.1 k (by omega)]
        · simpa [hj] using h1
      rw [this]

theorem foldl_put {α : Type} (f : α → Nat) (g : α → TVal) (l : List α)
    (hinj : l.Pairwise (fun a b => f a ≠ f b)) (t : List (Nat × TVal)) (hs : Sorted t) :
    Sorted (l.foldl (fun t e => treePut t (f e) (g e)) t) ∧
    ∀ k, tget (l.foldl (fun t e => treePut t (f e) (g e)) t) k =
      match l.find? (fun e => f e == k) with
      | some e => some (g e)
      | none => tget t k := by
  induction l generalizing t with
  | nil => simp [hs]
  | cons a l ih =>
    rw [List.pairwise_cons] at hinj
    have hs1 := sorted_treePut hs (f a) (g a)
    obtain ⟨h1, h2⟩ := ih hinj.2 (treePut t (f a) (g a)) hs1
    refine ⟨by simpa using h1, ?_⟩
    intro k
    simp only [List.foldl_cons, h2, List.find?_cons]
    by_cases hk : f a = k
    · subst hk
      have : l.find? (fun e => f e == f a) = none := by
        rw [List.find?_eq_none]; intro e he; simpa using fun h => hinj.1 e he h.symm
      simp [this, tget_treePut hs]
    · have : (f a == k) = false := by simpa using hk
      simp only [this]
      cases hf : l.find? (fun e => f e == k) with
      | some e => rfl
      | none => simp [tget_treePut hs, hk]

theorem find?_perm {α : Type} {l l' : List α} (hp : l.Perm l') (f : α → Nat)
    (hinj : l.Pairwise (fun a b => f a ≠ f b)) (k : Nat) :
    l.find? (fun e => f e == k) = l'.find? (fun e => f e == k) := by
  have huniq : ∀ a ∈ l, ∀ b ∈ l, f a = f b → a = b := by
    intro a ha b hb hab
    clear hp
    induction l with
    | nil => simp at ha
    | cons c l ih =>
      rw [List.pairwise_cons] at hinj
      rcases List.mem_cons.mp ha with h1 | h1 <;> rcases List.mem_cons.mp hb with h2 | h2
      · rw [h1, h2]
      · subst h1; exact absurd hab (hinj.1 b h2)
      · subst h2; exact absurd hab.symm (hinj.1 a h1)
      · exact ih hinj.2 h1 h2
  cases h : l.find? (fun e => f e == k) with
  | none =>
    symm
    rw [List.find?_eq_none] at h ⊢
    intro e he; exact h e (hp.mem_iff.mpr he)
  | some a =>
    have ha := List.find?_some h
    have ham := List.mem_of_find?_eq_some h
    cases h' : l'.find? (fun e => f e == k) with
    | none =>
      rw [List.find?_eq_none] at h'
      exact absurd ha (h' a (hp.mem_iff.mp ham))
    | some b =>
      have hb := List.find?_some h'
      have hbm := hp.mem_iff.mpr (List.mem_of_find?_eq_some h')
      simp at ha hb
      rw [huniq a ham b hbm (by rw [ha, hb])]


def Entry.val : Entry → TVal
  | .host p tls => .str (if tls then p ++ ascii "-tls" else p)
  | .tcp port random => .port ⟨port, random⟩

def entryTree : Nat → List Entry → List (Nat × TVal)
  | _, [] => []
  | i, e :: es => (i, e.val) :: entryTree (i + 1) es

theorem entryTree_ge {i : Nat} {es : List Entry} {x : Nat × TVal} (h : x ∈ entryTree i es) :
    i ≤ x.1 := by
  induction es generalizing i with
  | nil => simp [entryTree] at h
  | cons e es ih =>
    simp only [entryTree, List.mem_cons] at h
    rcases h with rfl | h
    · exact Nat.le_refl _
    · have := ih h; omega

theorem entryTree_sorted (i : Nat) (es : List Entry) : Sorted (entryTree i es) := by
  induction es generalizing i with
  | nil => exact List.Pairwise.nil
  | cons e es ih =>
    unfold Sorted at ih ⊢
    rw [entryTree, List.pairwise_cons]
    exact ⟨fun x hx => by have := entryTree_ge hx; simp; omega, ih _⟩

theorem entryTree_get (i : Nat) (es : List Entry) (k : Nat) :
    tget (entryTree i es) k = if k < i then none else (es[k - i]?).map Entry.val := by
  unfold tget
  induction es generalizing i with
  | nil => simp [entryTree]
  | cons e es ih =>
    simp only [entryTree, AMap.get, ih]
    by_cases h : i = k
    · subst h; simp
    · by_cases h2 : k < i
      · simp [h, h2, show k < i + 1 by omega]
      · have h3 : k - i = (k - (i + 1)) + 1 := by omega
        simp only [h, h2, if_false, show ¬ k < i + 1 by omega]
        rw [h3]; simp

theorem entryTree_bytes (i : Nat) (es : List Entry) :
    (entryTree i es).flatMap entryBytes = entriesBytes i es := by
  induction es generalizing i with
  | nil => rfl
  | cons e es ih =>
    simp only [entryTree, List.flatMap_cons, ih, entriesBytes]
    congr 1
    cases e <;> simp [Entry.val, entryBytes, Entry.bytes]

theorem find?_fst (m : AMap Nat TcpOpt) (k : Nat) :
    (m.find? (fun e => e.1 == k)).map Prod.snd = m.get k := by
  induction m with
  | nil => rfl
  | cons a m ih =>
    obtain ⟨j, v⟩ := a
    simp only [List.find?_cons, AMap.get]
    by_cases h : j = k
    · subst h; simp
    · have h2 : (j == k) = false := by simpa using h
      simp [h, h2, ih]

theorem Entry.bytes_eq (i : Nat) (e : Entry) : e.bytes i = entryBytes (i, e.val) := by
  cases e <;> simp [Entry.val, entryBytes, Entry.bytes]

/-- The index of a registered prefix determines the prefix. -/
theorem desc_index_inj {reg : Reg} {withID : Bool} {id : Bytes} {svcs : List Service}
    (hd : reg.Describes withID id svcs) (hn : reg.ids.keys.Nodup) :
    reg.ids.Pairwise (fun a b => a.2.serviceIndex ≠ b.2.serviceIndex) := by
  have h1 : reg.ids.Pairwise (fun a b => a.1 ≠ b.1) := by
    simpa [AMap.keys, List.Nodup, List.pairwise_map] using hn
  refine List.Pairwise.imp_of_mem ?_ h1
  intro a b ha hb hab hsi
  have ga := (hd.1 a.1 a.2).mp (AMap.get_of_mem hn ha)
  have gb := (hd.1 b.1 b.2).mp (AMap.get_of_mem hn hb)
  obtain ⟨s, hs, hs2⟩ := ga
  obtain ⟨s', hs', hs2'⟩ := gb
  rw [hsi, hs'] at hs
  simp at hs
  subst hs
  rw [hs2] at hs2'
  simp at hs2'
  exact hab hs2'.1

theorem host?_tcp? (withID : Bool) (id : Bytes) (s : Service) :
    (∃ p tls, s.host? withID id = some (p, tls) ∧ s.tcp? = none) ∨
    (s.host? withID id = none ∧ s.tcp? = some ⟨s.tcpPort, s.tcpRandom⟩) := by
  unfold Service.host? Service.tcp?
  cases s.scheme <;> simp

theorem fillTree_get {reg : Reg} {withID : Bool} {id : Bytes} {svcs : List Service}
    (hd : reg.Describes withID id svcs) (hn : reg.ids.keys.Nodup) (hp : reg.ports.keys.Nodup)
    (k : Nat) : Sorted (fillTree reg.ids reg.ports) ∧
      tget (fillTree reg.ids reg.ports) k = (svcs[k]?).map (fun s => (entry withID id s).val) := by
  have hinj := desc_index_inj hd hn
  have hk : reg.ports.Pairwise (fun a b => a.1 ≠ b.1) := by
    simpa [AMap.keys, List.Nodup, List.pairwise_map] using hp
  have a1 := foldl_put (fun e : Bytes × HostOpt => e.2.serviceIndex) (fun e => hostVal e.1 e.2)
    reg.ids hinj [] List.Pairwise.nil
  have b1 := foldl_put (fun e : Nat × TcpOpt => e.1) (fun e => .port e.2) reg.ports hk _ a1.1
  refine ⟨b1.1, ?_⟩
  unfold fillTree
  simp only
  rw [b1.2]
  have hport : (reg.ports.find? (fun e => e.1 == k)).map Prod.snd = reg.ports.get k := find?_fst _ _
  cases hs : svcs[k]? with
  | none =>
    have h1 : reg.ports.get k = none := by
      cases h : reg.ports.get k with
      | none => rfl
      | some t => obtain ⟨s, h2, _⟩ := (hd.2 k t).mp h; rw [hs] at h2; simp at h2
    rw [h1] at hport
    simp only [Option.map_eq_none_iff] at hport
    rw [hport]
    simp only
    rw [a1.2]
    cases hf : reg.ids.find? (fun e => e.2.serviceIndex == k) with
    | none => simp [tget]
    | some e =>
      have h2 := List.find?_some hf
      have h3 := List.mem_of_find?_eq_some hf
      obtain ⟨s, h4, _⟩ := (hd.1 e.1 e.2).mp (AMap.get_of_mem hn h3)
      simp at h2
      rw [h2, hs] at h4; simp at h4
  | some s =>
    rcases host?_tcp? withID id s with ⟨p, tls, h1, h2⟩ | ⟨h1, h2⟩
    · have h3 : reg.ports.get k = none := by
        cases h : reg.ports.get k with
        | none => rfl
        | some t =>
          obtain ⟨s', h4, h5⟩ := (hd.2 k t).mp h
          rw [hs] at h4; simp at h4; subst h4; rw [h2] at h5; simp at h5
      rw [h3] at hport
      simp only [Option.map_eq_none_iff] at hport
      rw [hport]
      simp only
      rw [a1.2]
      have h4 := (hd.1 p ⟨k, tls⟩).mpr ⟨s, hs, h1⟩
      have h5 := AMap.mem_of_get _ h4
      cases hf : reg.ids.find? (fun e => e.2.serviceIndex == k) with
      | none =>
        rw [List.find?_eq_none] at hf
        have := hf _ h5
        simp at this
      | some e =>
        have h6 := List.find?_some hf
        have h7 := List.mem_of_find?_eq_some hf
        obtain ⟨s', h8, h9⟩ := (hd.1 e.1 e.2).mp (AMap.get_of_mem hn h7)
        simp at h6
        rw [h6, hs] at h8
        simp at h8
        subst h8
        rw [h1] at h9
        simp at h9
        simp [entry, h1, Entry.val, hostVal, ← h9.1, ← h9.2]
    · have h3 := (hd.2 k ⟨s.tcpPort, s.tcpRandom⟩).mpr ⟨s, hs, h2⟩
      rw [h3] at hport
      simp only [Option.map_eq_some_iff] at hport
      obtain ⟨e, he, he2⟩ := hport
      rw [he]
      simp [entry, h1, Entry.val, he2]

/-- head analysis helpers for injectivity -/
theorem entriesBytes_head (i : Nat) (es : List Entry) :
    entriesBytes i es = [] ∨ ∃ r, entriesBytes i es = be16 i ++ r := by
  cases es with
  | nil => exact .inl rfl
  | cons e es =>
    right
    cases e <;> simp [entriesBytes, Entry.bytes]

theorem no_zero_prefix {s s' r r' : Bytes} (h : s ++ r = s' ++ r')
    (hs : ∀ b ∈ s, b ≠ 0) (hs' : ∀ b ∈ s', b ≠ 0)
    (hr : r = [] ∨ ∃ t, r = 0 :: t) (hr' : r' = [] ∨ ∃ t, r' = 0 :: t) : s = s' ∧ r = r' := by
  induction s generalizing s' with
  | nil =>
    cases s' with
    | nil => simpa using h
    | cons b s' =>
      rcases hr with rfl | ⟨t, rfl⟩
      · simp at h
      · simp at h
        exact absurd h.1.symm (hs' b (by simp))
  | cons a s ih =>
    cases s' with
    | nil =>
      rcases hr' with rfl | ⟨t, rfl⟩
      · simp at h
      · simp at h
        exact absurd h.1 (hs a (by simp))
    | cons b s' =>
      simp at h
      obtain ⟨rfl, h⟩ := h
      obtain ⟨h1, h2⟩ := ih h (fun x hx => hs x (by simp [hx])) (fun x hx => hs' x (by simp [hx]))
      exact ⟨by rw [h1], h2⟩

/-- text hashed for a host entry, after its index -/
def hostText (p : Bytes) (tls : Bool) : Bytes := if tls then p ++ ascii "-tls" else p

theorem hostText_big {p : Bytes} {tls : Bool} (h : (Entry.host p tls).Sane) :
    ∀ b ∈ hostText p tls, 1 < b.toNat := by
  intro b hb
  unfold hostText at hb
  split at hb
  · rw [List.mem_append] at hb
    rcases hb with hb | hb
    · exact h.2.1 b hb
    · have : b ∈ ([45, 116, 108, 115] : Bytes) := hb
      simp at this
      rcases this with rfl | rfl | rfl | rfl <;> decide
  · exact h.2.1 b hb

theorem hostText_ne {p : Bytes} {tls : Bool} (h : (Entry.host p tls).Sane) : hostText p tls ≠ [] := by
  unfold hostText; split
  · simp [h.1]
  · exact h.1

theorem hostText_inj {p p' : Bytes} {tls tls' : Bool} (h : (Entry.host p tls).Sane)
    (h' : (Entry.host p' tls').Sane) (he : hostText p tls = hostText p' tls') :
    p = p' ∧ tls = tls' := by
  unfold hostText at he
  cases tls <;> cases tls' <;> simp at he ⊢
  · exact he
  · exact h.2.2 rfl (he ▸ List.suffix_append _ _)
  · exact h'.2.2 rfl (he ▸ List.suffix_append _ _)
  · exact he

theorem big_ne_zero {b : UInt8} (h : 1 < b.toNat) : b ≠ 0 := by
  rintro rfl; simp at h

theorem big_ne_one {b : UInt8} (h : 1 < b.toNat) : b ≠ 1 := by
  rintro rfl; simp at h

theorem be16_small {i : Nat} (h : i < 256) : be16 i = [0, UInt8.ofNat i] := by
  simp [be16, Nat.div_eq_of_lt h]

theorem rand_small (r : Bool) : (if r then (1 : UInt8) else 0).toNat ≤ 1 := by cases r <;> simp

/-- a host entry and a TCP entry at the same position cannot give the same bytes -/
theorem host_ne_tcp {i : Nat} {p : Bytes} {tls : Bool} {port : Nat} {random : Bool}
    {as bs : List Entry} (h : (Entry.host p tls).Sane)
    (has : ∀ e ∈ as, e.Sane) (hbs : ∀ e ∈ bs, e.Sane) (hi : i + 3 < 256)
    (he : hostText p tls ++ entriesBytes (i + 1) as =
      be16 port ++ [if random then 1 else 0] ++ entriesBytes (i + 1) bs) : False := by
  have hbig := hostText_big h
  have hne := hostText_ne h
  generalize hostText p tls = s at hbig hne he
  have hr := rand_small random
  generalize (if random then (1 : UInt8) else 0) = r at hr he
  simp only [be16, List.cons_append, List.nil_append] at he
  generalize UInt8.ofNat (port / 256) = x at he
  generalize UInt8.ofNat port = y at he
  have hA := entriesBytes_head (i + 1) as
  have hB := entriesBytes_head (i + 1) bs
  rw [be16_small (by omega)] at hA hB
  match s, hne with
  | [a], _ =>
    -- text of one byte
    simp only [List.cons_append, List.nil_append, List.cons.injEq] at he
    obtain ⟨rfl, he⟩ := he
    cases as with
    | nil => simp [entriesBytes] at he
    | cons e as =>
      have hes := has e (by simp)
      cases e with
      | host q t =>
        have hq := hostText_big hes
        have hqn := hostText_ne hes
        have e1 : entriesBytes (i + 1) (Entry.host q t :: as) =
            0 :: UInt8.ofNat (i + 1) :: (hostText q t ++ entriesBytes (i + 1 + 1) as) := by
          simp [entriesBytes, Entry.bytes, be16_small (show i + 1 < 256 by omega), hostText]
        rw [e1] at he
        simp only [List.cons.injEq] at he
        obtain ⟨-, -, he⟩ := he
        match hx : hostText q t, hqn with
        | c :: l, _ =>
          have := hq c (by rw [hx]; simp)
          rw [hx] at he
          rcases hB with hB | ⟨t', hB⟩
          · rw [hB] at he; simp at he
          · rw [hB] at he
            simp at he
            rw [he.1] at this; simp at this
      | tcp port' random' =>
        have e1 : entriesBytes (i + 1) (Entry.tcp port' random' :: as) =
            0 :: UInt8.ofNat (i + 1) :: UInt8.ofNat (port' / 256) :: UInt8.ofNat port' ::
              (if random' then 1 else 0) :: entriesBytes (i + 1 + 1) as := by
          simp [entriesBytes, Entry.bytes, be16_small (show i + 1 < 256 by omega)]
          simp [be16]
        have hr' := rand_small random'
        rw [e1] at he
        generalize (if random' then (1 : UInt8) else 0) = r' at hr' he
        simp only [List.cons.injEq] at he
        obtain ⟨-, hri, he⟩ := he
        cases bs with
        | nil => simp [entriesBytes] at he
        | cons f bs =>
          have hfs := hbs f (by simp)
          cases f with
          | host q t =>
            have hq := hostText_big hfs
            have hqn := hostText_ne hfs
            have e2 : entriesBytes (i + 1) (Entry.host q t :: bs) =
                0 :: UInt8.ofNat (i + 1) :: (hostText q t ++ entriesBytes (i + 1 + 1) bs) := by
              simp [entriesBytes, Entry.bytes, be16_small (show i + 1 < 256 by omega), hostText]
            rw [e2] at he
            simp only [List.cons.injEq] at he
            obtain ⟨-, -, he⟩ := he
            match hx : hostText q t, hqn with
            | c :: l, _ =>
              have h5 := hq c (by rw [hx]; simp)
              rw [hx] at he
              simp only [List.cons_append, List.cons.injEq] at he
              rw [← he.1] at h5; omega
          | tcp port2 random2 =>
            have e2 : entriesBytes (i + 1) (Entry.tcp port2 random2 :: bs) =
                0 :: UInt8.ofNat (i + 1) :: UInt8.ofNat (port2 / 256) :: UInt8.ofNat port2 ::
                  (if random2 then 1 else 0) :: entriesBytes (i + 1 + 1) bs := by
              simp [entriesBytes, Entry.bytes, be16_small (show i + 1 < 256 by omega)]
              simp [be16]
            have hr2 := rand_small random2
            rw [e2] at he
            generalize (if random2 then (1 : UInt8) else 0) = r2 at hr2 he
            simp only [List.cons.injEq] at he
            obtain ⟨-, -, -, he⟩ := he
            have hA2 := entriesBytes_head (i + 1 + 1) as
            rw [be16_small (show i + 1 + 1 < 256 by omega)] at hA2
            rcases hA2 with hA2 | ⟨t, hA2⟩
            · rw [hA2] at he; simp at he
            · rw [hA2] at he
              simp only [List.cons_append, List.nil_append, List.cons.injEq] at he
              have h6 := congrArg UInt8.toNat he.2.1
              rw [u8_ofNat_toNat (by omega)] at h6
              omega
  | [a, b], _ =>
    simp only [List.cons_append, List.nil_append, List.cons.injEq] at he
    obtain ⟨-, -, he⟩ := he
    rcases hA with hA | ⟨t, hA⟩
    · rw [hA] at he; simp at he
    · rw [hA] at he
      simp only [List.cons_append, List.nil_append, List.cons.injEq] at he
      rcases hB with hB | ⟨t', hB⟩
      · rw [hB] at he; simp at he
      · rw [hB] at he
        simp only [List.cons_append, List.nil_append, List.cons.injEq] at he
        have h6 := congrArg UInt8.toNat he.2.1
        rw [u8_ofNat_toNat (by omega)] at h6
        simp at h6
  | a :: b :: c :: l, _ =>
    simp only [List.cons_append, List.cons.injEq] at he
    have := hbig c (by simp)
    rw [he.2.2.1] at this
    omega

theorem entriesBytes_inj {i : Nat} (as bs : List Entry) (has : ∀ e ∈ as, e.Sane)
    (hbs : ∀ e ∈ bs, e.Sane) (hi : i + as.length + 3 ≤ 256) (hj : i + bs.length + 3 ≤ 256)
    (h : entriesBytes i as = entriesBytes i bs) : as = bs := by
  induction as generalizing i bs with
  | nil =>
    cases bs with
    | nil => rfl
    | cons b bs => cases b <;> simp [entriesBytes, Entry.bytes, be16] at h
  | cons a as ih =>
    cases bs with
    | nil => cases a <;> simp [entriesBytes, Entry.bytes, be16] at h
    | cons b bs =>
      simp only [List.length_cons] at hi hj
      have has' : ∀ e ∈ as, e.Sane := fun e he => has e (by simp [he])
      have hbs' : ∀ e ∈ bs, e.Sane := fun e he => hbs e (by simp [he])
      have z : ∀ es : List Entry, entriesBytes (i + 1) es = [] ∨ ∃ t, entriesBytes (i + 1) es = 0 :: t := by
        intro es
        rcases entriesBytes_head (i + 1) es with h | ⟨r, h⟩
        · exact .inl h
        · rw [be16_small (by omega)] at h; exact .inr ⟨_, h⟩
      have ha := has a (by simp)
      have hb := hbs b (by simp)
      cases a with
      | host p tls =>
        cases b with
        | host q tls' =>
          simp only [entriesBytes, Entry.bytes, List.append_assoc, List.append_cancel_left_eq] at h
          change hostText p tls ++ _ = hostText q tls' ++ _ at h
          obtain ⟨h1, h2⟩ := no_zero_prefix h (fun b hb' => big_ne_zero (hostText_big ha b hb'))
            (fun b hb' => big_ne_zero (hostText_big hb b hb')) (z as) (z bs)
          obtain ⟨rfl, rfl⟩ := hostText_inj ha hb h1
          rw [ih bs has' hbs' (by omega) (by omega) h2]
        | tcp port random =>
          exfalso
          simp only [entriesBytes, Entry.bytes, List.append_assoc, List.append_cancel_left_eq] at h
          change hostText p tls ++ _ = _ at h
          exact host_ne_tcp (i := i) (port := port) (random := random) ha has' hbs' (by omega) (by simpa using h)
      | tcp port random =>
        cases b with
        | host q tls' =>
          exfalso
          simp only [entriesBytes, Entry.bytes, List.append_assoc, List.append_cancel_left_eq] at h
          change _ = hostText q tls' ++ _ at h
          exact host_ne_tcp (i := i) (port := port) (random := random) hb hbs' has' (by omega) (by simpa using h.symm)
        | tcp port' random' =>
          simp only [entriesBytes, Entry.bytes, List.append_assoc, List.append_cancel_left_eq] at h
          simp only [be16, List.cons_append, List.nil_append, List.cons.injEq] at h
          obtain ⟨h1, h2, h3, h4⟩ := h
          have hp : port = port' := by
            have e1 := congrArg UInt8.toNat h1
            have e2 := congrArg UInt8.toNat h2
            simp only [Entry.Sane] at ha hb
            simp at e1 e2
            omega
          have hr : random = random' := by
            cases random <;> cases random' <;> simp at h3 ⊢
          rw [hp, hr, ih bs has' hbs' (by omega) (by omega) h4]

end Verif.Checksum
