import Verif.Bufio.Spec
set_option linter.unusedSimpArgs false
/-! Helper lemmas for the buffered reader. -/
namespace Verif.Bufio
open Verif

theorem bytesOf_cons (c : Bytes × Option Err) (s : Script) : bytesOf (c :: s) = c.1 ++ bytesOf s := by
  simp [bytesOf]

theorem srcRead_spec (src : Script) (m : Nat) :
    bytesOf src = (srcRead src m).1 ++ bytesOf (srcRead src m).2.2 ∧ (srcRead src m).1.length ≤ m := by
  cases src with
  | nil => simp [srcRead, bytesOf]
  | cons c rest =>
    obtain ⟨bs, e⟩ := c
    simp only [srcRead]
    split
    · simp [bytesOf_cons]; omega
    · simp only [bytesOf_cons]
      refine ⟨?_, by simp; omega⟩
      rw [← List.append_assoc, List.take_append_drop]

/-- What `fill` guarantees. -/
structure FillPost (s s' : Rd) (bs : Bytes) : Prop where
  cap : s'.cap = s.cap
  r : s'.r = 0
  last : s'.last = s.last
  data : s'.data = s.data ++ bs
  src : bytesOf s.src = bs ++ bytesOf s'.src
  fits : s'.data.length ≤ s.cap
  prog : bs = [] → s'.err ≠ none

theorem fillLoop_spec (i : Nat) (s : Rd) (hr : s.r = 0) (hf : s.data.length ≤ s.cap) :
    ∃ bs, FillPost s (fillLoop i s) bs := by
  induction i generalizing s with
  | zero => exact ⟨[], by constructor <;> simp [fillLoop, hr, hf]⟩
  | succ i ih =>
    have h := srcRead_spec s.src (s.cap - s.data.length)
    simp only [fillLoop]
    generalize srcRead s.src (s.cap - s.data.length) = q at h ⊢
    obtain ⟨bs, e, src'⟩ := q
    simp only at h ⊢
    cases e with
    | some e =>
      refine ⟨bs, ?_⟩
      constructor <;> simp [hr, h.1] ; omega
    | none =>
      simp only
      split
      · refine ⟨bs, ?_⟩
        rename_i hb
        constructor <;> simp [hr, h.1]
        · omega
        · intro hh; simp [hh] at hb
      · rename_i hb
        have hb : bs = [] := by cases bs with
          | nil => rfl
          | cons a b => simp at hb
        subst hb
        obtain ⟨bs, hp⟩ := ih { s with data := s.data ++ [], src := src' } hr (by simpa using hf)
        refine ⟨bs, ?_⟩
        constructor
        · exact hp.cap
        · exact hp.r
        · exact hp.last
        · simpa using hp.data
        · rw [h.1]; simpa using hp.src
        · exact hp.fits
        · exact hp.prog

theorem fill_spec (s : Rd) (hf : s.data.length < s.cap) :
    ∃ s' bs, fill s = some s' ∧ FillPost s s' bs := by
  obtain ⟨bs, hp⟩ := fillLoop_spec 100 { s with r := 0 } rfl (Nat.le_of_lt hf)
  refine ⟨fillLoop 100 { s with r := 0 }, bs, ?_, ?_⟩
  · simp only [fill]
    rw [if_neg (by omega)]
  · constructor
    · exact hp.cap
    · exact hp.r
    · exact hp.last
    · exact hp.data
    · exact hp.src
    · exact hp.fits
    · exact hp.prog

/-- Capacity invariant. -/
def Cap (s : Rd) : Prop := 0 < s.cap ∧ s.r + s.data.length ≤ s.cap

/-- `s'` has pulled some more bytes into the window, nothing else. -/
structure Ext (s s' : Rd) : Prop where
  cap : s'.cap = s.cap
  last : s'.last = s.last
  data : ∃ bs, s'.data = s.data ++ bs ∧ bytesOf s.src = bs ++ bytesOf s'.src
  inv : Cap s'

theorem FillPost.ext {s s' : Rd} {bs : Bytes} (h : FillPost s s' bs) (hc : 0 < s.cap) : Ext s s' :=
  ⟨h.cap, h.last, ⟨bs, h.data, h.src⟩, ⟨by rw [h.cap]; exact hc, by rw [h.r, h.cap]; simpa using h.fits⟩⟩

theorem Ext.refl {s : Rd} (h : Cap s) : Ext s s := ⟨rfl, rfl, ⟨[], by simp⟩, h⟩

theorem Ext.trans {a b c : Rd} (h1 : Ext a b) (h2 : Ext b c) : Ext a c := by
  obtain ⟨b1, d1, s1⟩ := h1.data
  obtain ⟨b2, d2, s2⟩ := h2.data
  exact ⟨h2.cap.trans h1.cap, h2.last.trans h1.last, ⟨b1 ++ b2, by rw [d2, d1]; simp,
    by rw [s1, s2]; simp⟩, h2.inv⟩

theorem Ext.stream {s s' : Rd} (h : Ext s s') : s'.data ++ bytesOf s'.src = s.data ++ bytesOf s.src := by
  obtain ⟨b, d, e⟩ := h.data
  rw [d, e]; simp

theorem peekLoop_total (f n : Nat) (s : Rd) (hc : Cap s) (hf : s.cap - s.data.length + 1 < f ∨
    (s.err ≠ none ∧ 0 < f)) :
    ∃ s', peekLoop f n s = some s' ∧ Ext s s' ∧
      ¬ (s'.data.length < n ∧ s'.data.length < s'.cap ∧ s'.err = none) := by
  induction f generalizing s with
  | zero => omega
  | succ f ih =>
    simp only [peekLoop]
    split
    · rename_i hg
      obtain ⟨s1, bs, he, hp⟩ := fill_spec s hg.2.1
      rw [he]
      simp only
      have hx := hp.ext hc.1
      have : s1.cap - s1.data.length + 1 < f ∨ (s1.err ≠ none ∧ 0 < f) := by
        rcases hf with hf | hf
        · cases bs with
          | nil => exact Or.inr ⟨hp.prog rfl, by omega⟩
          | cons a b =>
            left
            rw [hp.cap, hp.data]; simp
            have := hp.fits
            rw [hp.data] at this; simp at this
            omega
        · exact absurd hg.2.2 hf.1
      obtain ⟨s2, h1, h2, h3⟩ := ih s1 hx.inv this
      exact ⟨s2, h1, hx.trans h2, h3⟩
    · exact ⟨s, rfl, Ext.refl hc, by assumption⟩

theorem Cap.noLast {s : Rd} (h : Cap s) (x : Option UInt8) : Cap { s with last := x } := h

theorem peek_spec (n : Nat) (s : Rd) (hc : Cap s) :
    ∃ bs e s', peek n s = some ((bs, e), s') ∧ Ext { s with last := none } s' ∧
      bs = s'.data.take bs.length ∧ (e = none ↔ bs.length = n ∧ n ≤ s.cap) ∧ bs.length ≤ n ∧ bs.length ≤ s.cap := by
  obtain ⟨s1, h1, h2, h3⟩ := peekLoop_total (s.cap + 2) n { s with last := none } hc (Or.inl (by
    simp only
    have := hc.1; omega))
  have hcap : s1.cap = s.cap := h2.cap
  have hlen : s1.data.length ≤ s.cap := by have := h2.inv.2; omega
  unfold peek
  rw [h1]
  simp only
  split
  · rename_i hn
    refine ⟨_, _, s1, rfl, h2, by simp, ?_, by omega, hlen⟩
    simp; omega
  · rename_i hn
    split
    · rename_i hl
      refine ⟨_, _, _, rfl, ?_, (by simp [readErr]), ?_, by omega, hlen⟩
      · exact ⟨h2.cap, h2.last, h2.data, h2.inv⟩
      · simp; omega
    · rename_i hl
      refine ⟨_, _, s1, rfl, h2, ?_, ?_, by simp; omega, by simp; omega⟩
      · rw [List.length_take, Nat.min_eq_left (by omega)]
      · simp; omega

/-- `s'` has consumed the `k` next bytes `bs` of the stream. -/
structure Adv (s s' : Rd) (bs : Bytes) : Prop where
  cap : s'.cap = s.cap
  stream : s.data ++ bytesOf s.src = bs ++ (s'.data ++ bytesOf s'.src)
  inv : Cap s'

theorem Ext.adv {s s' : Rd} (h : Ext s s') : Adv s s' [] := ⟨h.cap, by simp [h.stream], h.inv⟩

theorem Adv.trans {a b c : Rd} {x y : Bytes} (h1 : Adv a b x) (h2 : Adv b c y) : Adv a c (x ++ y) :=
  ⟨h2.cap.trans h1.cap, by rw [h1.stream, h2.stream]; simp, h2.inv⟩

theorem Adv.take {s : Rd} (h : Cap s) (k : Nat) (hk : k ≤ s.data.length) (e : Option Err) (l : Option UInt8) :
    Adv s { s with r := s.r + k, data := s.data.drop k, err := e, last := l } (s.data.take k) := by
  refine ⟨rfl, ?_, h.1, ?_⟩
  · simp only
    rw [← List.append_assoc, List.take_append_drop]
  · have := h.2
    simp; omega

theorem discardLoop_spec (f n remain : Nat) (s : Rd) (hc : Cap s) (hrn : remain ≤ n) (hr0 : 0 < remain) (hf : remain < f) :
    ∃ k e s' bs, discardLoop f n remain s = some ((n - remain + k, e), s') ∧ Adv s s' bs ∧ s'.last = s.last ∧
      bs.length = k ∧ k ≤ remain ∧ (e = none ↔ k = remain) := by
  induction f generalizing remain s with
  | zero => omega
  | succ f ih =>
    have hpre : ∃ s1, (if s.data.length = 0 then fill s else some s) = some s1 ∧ Adv s s1 [] ∧ s1.last = s.last ∧
        (s1.data = [] → s1.err ≠ none) := by
      split
      · rename_i h0
        obtain ⟨s1, bs, he, hp⟩ := fill_spec s (by have := hc.1; omega)
        refine ⟨s1, he, (hp.ext hc.1).adv, hp.last, ?_⟩
        intro hd
        apply hp.prog
        rw [hp.data] at hd; simp at hd; exact hd.2
      · rename_i h0
        refine ⟨s, rfl, (Ext.refl hc).adv, rfl, ?_⟩
        intro hd; simp [hd] at h0
    obtain ⟨s1, e1, a1, l1, p1⟩ := hpre
    simp only [discardLoop, e1]
    have a2 := Adv.take a1.inv (min s1.data.length remain) (Nat.min_le_left _ _) s1.err s1.last
    split
    · rename_i hz
      refine ⟨remain, none, _, _, ?_, a1.trans a2, by simpa using l1, ?_, Nat.le_refl _, by simp⟩
      · have : n - remain + remain = n := by omega
        rw [this]
      · simp; omega
    · rename_i hz
      split
      · rename_i he
        have a3 := Adv.take a1.inv (min s1.data.length remain) (Nat.min_le_left _ _) none s1.last
        refine ⟨min s1.data.length remain, s1.err, _, _, ?_, a1.trans a3, by simpa using l1, ?_, by omega, ?_⟩
        · have : n - (remain - min s1.data.length remain) = n - remain + min s1.data.length remain := by omega
          rw [this]; rfl
        · simp
        · simp at he; simp [he]; omega
      · rename_i he
        have hd : s1.data ≠ [] := by
          intro h; exact p1 h (by simpa using he)
        have hl : 0 < s1.data.length := by cases hh : s1.data with
          | nil => exact absurd hh hd
          | cons a b => simp
        obtain ⟨k, e, s', bs, h1, h2, h3, h4, h5, h6⟩ := ih (remain - min s1.data.length remain) _ a2.inv (by omega) (by omega) (by omega)
        refine ⟨min s1.data.length remain + k, e, s', _, ?_, (a1.trans a2).trans h2, by rw [h3]; simpa using l1, ?_, by omega, ?_⟩
        · rw [show n - remain + (min s1.data.length remain + k) = n - (remain - min s1.data.length remain) + k by omega]
          rw [← h1]
        · simp [h4]
        · rw [h6]; omega

theorem discard_spec (n : Nat) (s : Rd) (hc : Cap s) :
    ∃ k e s' bs, discard n s = some ((k, e), s') ∧ Adv s s' bs ∧ s'.last = s.last ∧
      bs.length = k ∧ k ≤ n ∧ (e = none ↔ k = n) := by
  unfold discard
  split
  · rename_i h
    exact ⟨0, none, s, [], rfl, (Ext.refl hc).adv, rfl, rfl, by omega, by simp [h]⟩
  · rename_i h
    obtain ⟨k, e, s', bs, h1, h2⟩ := discardLoop_spec (n + 1) n n s hc (Nat.le_refl _) (by omega) (by omega)
    refine ⟨k, e, s', bs, ?_, h2⟩
    rw [h1]; simp

/-- How a consuming call sets the byte `UnreadByte` restores. -/
def LastOk (s s' : Rd) (bs : Bytes) : Prop :=
  (bs = [] → s'.last = s.last) ∧ (bs ≠ [] → s'.last = bs.getLast?)

theorem getLast?_take_ne {bs : Bytes} {m : Nat} : bs.getLast? = bs.getLast? := rfl

theorem read_spec (m : Nat) (s : Rd) (hc : Cap s) :
    ∃ bs e s', read m s = ((bs, e), s') ∧ Adv s s' bs ∧ LastOk s s' bs ∧ bs.length ≤ m := by
  unfold read
  split
  · split
    · exact ⟨[], _, _, rfl, (Ext.refl hc).adv, ⟨fun _ => rfl, by simp⟩, by simp⟩
    · refine ⟨[], _, _, rfl, ⟨rfl, by simp, hc⟩, ⟨fun _ => rfl, by simp⟩, by simp⟩
  · rename_i hm
    split
    · rename_i h0
      have h0' : s.data = [] := List.length_eq_zero_iff.mp h0
      split
      · refine ⟨[], _, _, rfl, ⟨rfl, by simp, hc⟩, ⟨fun _ => rfl, by simp⟩, by simp⟩
      · split
        · have h := srcRead_spec s.src m
          generalize srcRead s.src m = q at h ⊢
          obtain ⟨bs, e, src'⟩ := q
          simp only at h ⊢
          refine ⟨bs, e, _, rfl, ⟨rfl, by simp [h0', h.1], hc⟩, ⟨?_, ?_⟩, h.2⟩
          · intro hb; simp [hb]
          · intro hb
            have : bs.length > 0 := List.length_pos_iff.mpr hb
            simp [this]
        · rename_i hm2
          have h := srcRead_spec s.src s.cap
          generalize srcRead s.src s.cap = q at h ⊢
          obtain ⟨bs, e, src'⟩ := q
          simp only at h ⊢
          split
          · rename_i hb
            have hb : bs = [] := List.length_eq_zero_iff.mp hb
            refine ⟨[], e, _, rfl, ⟨rfl, by simp [h0', h.1, hb], ?_⟩, ⟨fun _ => rfl, by simp⟩, by simp⟩
            exact ⟨hc.1, by simp [h0']⟩
          · rename_i hb
            refine ⟨bs.take m, none, _, rfl, ⟨rfl, ?_, ?_⟩, ⟨?_, ?_⟩, by simp; omega⟩
            · simp only [h0', List.nil_append, h.1]
              rw [← List.append_assoc, List.take_append_drop]
            · refine ⟨hc.1, ?_⟩
              simp; omega
            · intro hh
              simp at hh
              rcases hh with hh | hh
              · omega
              · simp [hh] at hb
            · intro _; rfl
    · rename_i h0
      refine ⟨s.data.take m, none, _, rfl, ⟨rfl, ?_, ?_⟩, ⟨?_, fun _ => rfl⟩, by simp; omega⟩
      · simp only
        rw [← List.append_assoc, List.take_append_drop]
      · have := hc.2
        exact ⟨hc.1, by simp; omega⟩
      · intro hh
        simp at hh
        rcases hh with hh | hh
        · omega
        · simp [hh] at h0

theorem readByte_spec (s : Rd) (hc : Cap s) :
    ∃ res s', readByte s = some (res, s') ∧
      match res with
      | .ok c => Adv s s' [c] ∧ s'.last = some c
      | .error _ => Adv s s' [] ∧ s'.last = s.last := by
  unfold readByte
  simp only [readByteLoop]
  split
  · rename_i c rest hd
    refine ⟨_, _, rfl, ?_⟩
    refine ⟨⟨rfl, by simp [hd], hc.1, ?_⟩, rfl⟩
    have := hc.2
    rw [hd] at this; simp at this ⊢; omega
  · rename_i hd
    split
    · rename_i e he
      exact ⟨_, _, rfl, ⟨rfl, by simp, hc⟩, rfl⟩
    · rename_i he
      obtain ⟨s1, bs, e1, hp⟩ := fill_spec s (by rw [hd]; exact hc.1)
      have hx := hp.ext hc.1
      simp only [e1]
      split
      · rename_i c rest hd1
        refine ⟨_, _, rfl, ⟨hx.cap, ?_, hx.inv.1, ?_⟩, rfl⟩
        · rw [← hx.stream, hd1]; simp
        · have := hx.inv.2
          rw [hd1] at this; simp at this ⊢; omega
      · rename_i hd1
        split
        · refine ⟨_, _, rfl, ⟨hx.cap, ?_, hx.inv⟩, hx.last⟩
          simp [← hx.stream]
        · rename_i he1
          exfalso
          apply hp.prog _ he1
          rw [hp.data] at hd1; simp at hd1; exact hd1.2

theorem unreadByte_spec (s : Rd) (hc : Cap s) :
    ∃ e s', unreadByte s = (e, s') ∧ Cap s' ∧ s'.cap = s.cap ∧
      match e with
      | none => ∃ c, s.last = some c ∧ s'.last = none ∧ s'.data ++ bytesOf s'.src = c :: (s.data ++ bytesOf s.src)
      | some _ => s' = s := by
  unfold unreadByte
  split
  · exact ⟨_, s, rfl, hc, rfl, rfl⟩
  · rename_i c hl
    split
    · exact ⟨_, s, rfl, hc, rfl, rfl⟩
    · rename_i h
      refine ⟨_, _, rfl, ⟨hc.1, ?_⟩, rfl, c, hl, rfl, by simp⟩
      have h1 := hc.1
      have h2 := hc.2
      simp at h ⊢
      by_cases hr : s.r = 0
      · simp [h hr, hr]; omega
      · omega

theorem indexFrom_none {d : UInt8} {st : Nat} {bs : Bytes} (h : indexFrom d st bs = none)
    (hpre : d ∉ bs.take st) : d ∉ bs := by
  unfold indexFrom at h
  simp at h
  intro hm
  rw [← List.take_append_drop st bs, List.mem_append] at hm
  rcases hm with hm | hm
  · exact hpre hm
  · exact h hm

theorem indexFrom_some {d : UInt8} {st i : Nat} {bs : Bytes} (h : indexFrom d st bs = some i)
    (hpre : d ∉ bs.take st) : i < bs.length ∧ bs.take (i + 1) = bs.take i ++ [d] ∧ d ∉ bs.take i := by
  unfold indexFrom at h
  simp only [Option.map_eq_some_iff] at h
  obtain ⟨j, hj, rfl⟩ := h
  obtain ⟨hlt, heq, hne⟩ : ∃ h : j < (bs.drop st).length, (bs.drop st)[j] = d ∧ ∀ k (hk : k < j), (bs.drop st)[k]'(by omega) ≠ d := by
    rw [List.idxOf?, List.findIdx?_eq_some_iff_getElem] at hj
    obtain ⟨h1, h2, h3⟩ := hj
    exact ⟨h1, by simpa using h2, fun k hk => by simpa using h3 k hk⟩
  simp at hlt
  refine ⟨by omega, ?_, ?_⟩
  · rw [List.take_succ_eq_append_getElem (by omega)]
    congr 1
    rw [List.getElem_drop] at heq
    simp [← heq, Nat.add_comm]
  · intro hm
    rw [List.mem_take_iff_getElem] at hm
    obtain ⟨k, hk, he⟩ := hm
    by_cases hks : k < st
    · apply hpre
      rw [List.mem_take_iff_getElem]
      exact ⟨k, by omega, he⟩
    · have := hne (k - st) (by omega)
      rw [List.getElem_drop] at this
      apply this
      rw [← he]
      congr 1
      omega

theorem readSliceLoop_spec (f : Nat) (d : UInt8) (st : Nat) (s : Rd) (hc : Cap s) (hpre : d ∉ s.data.take st)
    (hf : s.cap - s.data.length + 1 < f ∨ (s.err ≠ none ∧ 0 < f)) :
    ∃ bs e s', readSliceLoop f d st s = some ((bs, e), s') ∧ Adv s s' bs ∧ s'.last = s.last ∧
      (match e with
      | none => ∃ l, bs = l ++ [d] ∧ d ∉ l
      | some _ => d ∉ bs) := by
  induction f generalizing st s with
  | zero => omega
  | succ f ih =>
    simp only [readSliceLoop]
    split
    · rename_i i hi
      have h := indexFrom_some hi hpre
      refine ⟨_, _, _, rfl, ?_, rfl, s.data.take i, h.2.1, h.2.2⟩
      have := Adv.take hc (i + 1) (by omega) s.err s.last
      simpa [Nat.add_assoc] using this
    · rename_i hi
      have hn := indexFrom_none hi hpre
      split
      · rename_i e he
        refine ⟨_, _, _, rfl, ⟨rfl, by simp, hc.1, ?_⟩, rfl, hn⟩
        simpa using hc.2
      · rename_i he
        split
        · refine ⟨_, _, _, rfl, ⟨rfl, by simp, hc.1, ?_⟩, rfl, hn⟩
          simpa using hc.2
        · rename_i hl
          obtain ⟨s1, bs, e1, hp⟩ := fill_spec s (by omega)
          have hx := hp.ext hc.1
          simp only [e1]
          have hfuel : s1.cap - s1.data.length + 1 < f ∨ (s1.err ≠ none ∧ 0 < f) := by
            rcases hf with hf | hf
            · cases bs with
              | nil => exact Or.inr ⟨hp.prog rfl, by omega⟩
              | cons a b =>
                left
                rw [hp.cap, hp.data]; simp
                have := hp.fits
                rw [hp.data] at this; simp at this
                omega
            · exact absurd he hf.1
          obtain ⟨bs', e, s', h1, h2, h3, h4⟩ := ih s.data.length s1 hx.inv (by rw [hp.data]; simpa using hn) hfuel
          exact ⟨bs', e, s', h1, by simpa using hx.adv.trans h2, h3.trans hx.last, h4⟩

theorem readSlice_spec (d : UInt8) (s : Rd) (hc : Cap s) :
    ∃ bs e s', readSlice d s = some ((bs, e), s') ∧ Adv s s' bs ∧ LastOk s s' bs ∧
      (match e with
      | none => ∃ l, bs = l ++ [d] ∧ d ∉ l
      | some _ => d ∉ bs) := by
  obtain ⟨bs, e, s', h1, h2, h3, h4⟩ := readSliceLoop_spec (s.cap + 2) d 0 s hc (by simp)
    (Or.inl (by have := hc.1; omega))
  refine ⟨bs, e, setLast bs s', ?_, ?_, ?_, h4⟩
  · unfold readSlice; rw [h1]; rfl
  · unfold setLast; split
    · exact ⟨h2.cap, h2.stream, h2.inv⟩
    · exact h2
  · unfold setLast
    constructor
    · intro hb; simp [hb, h3]
    · intro hb
      rw [if_pos (List.length_pos_iff.mpr hb)]

/-! ### LimitedReader -/

theorem wrWrite_spec (w : WScript) (p : Bytes) :
    ∃ k, (wrWrite w p).1 = p.take k ∧ ((wrWrite w p).2.1 = false → (wrWrite w p).1 = p) := by
  cases w with
  | nil => exact ⟨p.length, by simp [wrWrite]⟩
  | cons a ws =>
    cases a with
    | none => exact ⟨p.length, by simp [wrWrite]⟩
    | some k => exact ⟨k, by simp [wrWrite]⟩

theorem writeBuf_spec (l : Lim) (w : WScript) (hc : Cap l.rd) :
    ∃ bs failed l' w', l.writeBuf w = (bs, failed, l', w') ∧ Adv l.rd l'.rd bs ∧
      l'.n + bs.length = l.n ∧ l'.rd.err = l.rd.err ∧
      (failed = false → bs = l.rd.data.take l.n ∧ l'.rd.data = l.rd.data.drop l.n) ∧
      (w = [] → failed = false ∧ w' = []) := by
  obtain ⟨k, h1, h2⟩ := wrWrite_spec w (l.rd.data.take l.n)
  unfold Lim.writeBuf
  have hw : w = [] → (wrWrite w (l.rd.data.take l.n)).2.1 = false ∧ (wrWrite w (l.rd.data.take l.n)).2.2 = [] := by
    intro hw; subst hw; simp [wrWrite]
  generalize wrWrite w (l.rd.data.take l.n) = q at *
  obtain ⟨bs, failed, w'⟩ := q
  simp only at h1 h2 hw ⊢
  have hb : bs = l.rd.data.take bs.length := by
    rw [h1, List.take_take, List.length_take]
    rw [List.take_eq_take_iff]; omega
  have hlen : bs.length ≤ l.n ∧ bs.length ≤ l.rd.data.length := by
    rw [h1]; simp; omega
  refine ⟨bs, failed, _, w', rfl, ?_, ?_, rfl, ?_, hw⟩
  · have := Adv.take hc bs.length hlen.2 l.rd.err l.rd.last
    rw [← hb] at this
    exact this
  · simp; omega
  · intro hf
    refine ⟨h2 hf, ?_⟩
    simp only
    rw [h2 hf, List.length_take]
    by_cases hh : l.n ≤ l.rd.data.length
    · rw [Nat.min_eq_left hh]
    · rw [Nat.min_eq_right (by omega), List.drop_length, List.drop_eq_nil_of_le (by omega)]

/-- Outcome of copying: `bs` handed over. -/
structure Copied (l l' : Lim) (bs : Bytes) (e : WErr) : Prop where
  adv : Adv l.rd l'.rd bs
  count : l'.n + bs.length = l.n
  short : e = .nil → l'.n = 0 ∨ l'.rd.data = []

theorem writeToLoop_spec (f : Nat) (acc : Bytes) (l : Lim) (w : WScript) (hc : Cap l.rd) (hf : l.n < f)
    (hn : 0 < l.n) :
    ∃ bs e l' w', l.writeToLoop f acc w = some (acc ++ bs, e, l', w') ∧ Copied l l' bs e := by
  induction f generalizing acc l w with
  | zero => omega
  | succ f ih =>
    simp only [Lim.writeToLoop]
    split
    · rename_i hd
      obtain ⟨bs, failed, l1, w1, h1, h2, h3, h4, h5, _⟩ := writeBuf_spec l w hc
      rw [h1]
      simp only
      split
      · exact ⟨bs, _, l1, w1, rfl, h2, h3, by simp⟩
      · rename_i hfl
        have h5 := h5 (by simpa using hfl)
        split
        · rename_i hz
          exact ⟨bs, _, l1, w1, rfl, h2, h3, fun _ => Or.inl hz⟩
        · rename_i hz
          have hbl : bs.length = min l.n l.rd.data.length := by rw [h5.1, List.length_take]
          have hd1 : l1.rd.data = [] := by
            rw [h5.2, List.drop_eq_nil_of_le (by omega)]
          obtain ⟨rd2, bs2, e2, hp⟩ := fill_spec l1.rd (by rw [hd1]; exact h2.inv.1)
          have hx := hp.ext h2.inv.1
          simp only [e2]
          obtain ⟨bs3, e3, l3, w3, g1, g2⟩ := ih (acc ++ bs) { l1 with rd := rd2 } w1 hx.inv (by simp only; omega) (by simp only; omega)
          refine ⟨bs ++ bs3, e3, l3, w3, ?_, ?_, ?_, g2.short⟩
          · rw [g1]; simp
          · have := (h2.trans hx.adv).trans g2.adv
            simpa using this
          · have := g2.count
            simp at this ⊢; omega
    · rename_i hd
      have hd : l.rd.data = [] := by
        cases hh : l.rd.data with
        | nil => rfl
        | cons a b => simp [hh] at hd
      split
      · exact ⟨[], _, l, w, by rw [List.append_nil], (Ext.refl hc).adv, by simp, fun _ => Or.inr hd⟩
      · exact ⟨[], _, { l with rd := { l.rd with err := none } }, w, by rw [List.append_nil],
          ⟨rfl, by simp, hc⟩, by simp, fun _ => Or.inr hd⟩
      · exact ⟨[], _, { l with rd := { l.rd with err := none } }, w, by rw [List.append_nil],
          ⟨rfl, by simp, hc⟩, by simp, by intro hh; cases hh⟩

theorem writeTo_spec (l : Lim) (w : WScript) (hc : Cap l.rd) :
    ∃ bs e l' w', l.writeTo w = some (bs, e, l', w') ∧ Copied l l' bs e := by
  unfold Lim.writeTo
  split
  · rename_i h0
    exact ⟨[], _, l, w, rfl, (Ext.refl hc).adv, by simp, fun _ => Or.inl h0⟩
  · rename_i h0
    obtain ⟨bs, failed, l1, w1, h1, h2, h3, h4, h5, _⟩ := writeBuf_spec l w hc
    rw [h1]
    simp only
    split
    · exact ⟨bs, _, l1, w1, rfl, h2, h3, by simp⟩
    · split
      · rename_i hz
        exact ⟨bs, _, l1, w1, rfl, h2, h3, fun _ => Or.inl hz⟩
      · rename_i hz
        have : ∃ rd2, (if l1.rd.data.length < l1.rd.cap then fill l1.rd else some l1.rd) = some rd2 ∧ Ext l1.rd rd2 := by
          split
          · obtain ⟨rd2, bs2, e2, hp⟩ := fill_spec l1.rd (by assumption)
            exact ⟨rd2, e2, hp.ext h2.inv.1⟩
          · exact ⟨_, rfl, Ext.refl h2.inv⟩
        obtain ⟨rd2, e2, hx⟩ := this
        rw [e2]
        simp only
        obtain ⟨bs3, e3, l3, w3, g1, g2⟩ := writeToLoop_spec (l1.n + 2) bs { l1 with rd := rd2 } w1 hx.inv (by simp only; omega) (by simp only; omega)
        refine ⟨bs ++ bs3, e3, l3, w3, g1, ?_, ?_, g2.short⟩
        · have := (h2.trans hx.adv).trans g2.adv
          simpa using this
        · have := g2.count
          simp at this ⊢; omega

theorem limRead_spec (m : Nat) (l : Lim) (hc : Cap l.rd) :
    ∃ bs e l', l.read m = ((bs, e), l') ∧ Adv l.rd l'.rd bs ∧ l'.n + bs.length = l.n ∧ bs.length ≤ m := by
  unfold Lim.read
  split
  · exact ⟨[], _, l, rfl, (Ext.refl hc).adv, by simp, by simp⟩
  · obtain ⟨bs, e, s', h1, h2, h3, h4⟩ := read_spec (min m l.n) l.rd hc
    rw [h1]
    exact ⟨bs, e, _, rfl, h2, by simp; omega, by omega⟩

theorem limReadSliceLoop_spec (f : Nat) (d : UInt8) (st : Nat) (l : Lim) (hc : Cap l.rd)
    (hpre : d ∉ (l.rd.data.take l.n).take st)
    (hf : l.rd.cap - l.rd.data.length + 1 < f ∨ (l.rd.err ≠ none ∧ 0 < f)) :
    ∃ bs e s', l.readSliceLoop f d st = some ((bs, e), s') ∧ Adv l.rd s' bs ∧ bs.length ≤ l.n ∧
      (match e with
      | none => ∃ l, bs = l ++ [d] ∧ d ∉ l
      | some _ => d ∉ bs) := by
  induction f generalizing st l with
  | zero => omega
  | succ f ih =>
    simp only [Lim.readSliceLoop]
    split
    · rename_i i hi
      have h := indexFrom_some hi hpre
      have hi1 : i + 1 ≤ l.n ∧ i + 1 ≤ l.rd.data.length := by have := h.1; simp at this; omega
      refine ⟨_, _, _, rfl, ?_, by simp; omega, l.rd.data.take i, ?_, ?_⟩
      · have := Adv.take hc (i + 1) hi1.2 l.rd.err l.rd.last
        simpa [Nat.add_assoc] using this
      · have := h.2.1
        rw [List.take_take, List.take_take, Nat.min_eq_left (by omega), Nat.min_eq_left (by omega)] at this
        exact this
      · have := h.2.2
        rw [List.take_take, Nat.min_eq_left (by omega)] at this
        exact this
    · rename_i hi
      have hn := indexFrom_none hi hpre
      have key : ∀ e, Adv l.rd { l.rd with r := l.rd.r + (l.rd.data.take l.n).length, data := l.rd.data.drop (l.rd.data.take l.n).length, err := e } (l.rd.data.take l.n) := by
        intro e
        have := Adv.take hc (l.rd.data.take l.n).length (by simp; omega) e l.rd.last
        have h2 : l.rd.data.take (l.rd.data.take l.n).length = l.rd.data.take l.n := by
          rw [List.take_eq_take_iff]; simp
        rw [h2] at this
        exact this
      split
      · rename_i e he
        exact ⟨_, _, _, rfl, key none, by simp; omega, hn⟩
      · rename_i he
        split
        · exact ⟨_, _, _, rfl, key l.rd.err, by simp; omega, hn⟩
        · rename_i hwl
          have hlt : l.rd.data.length < l.n := by simp at hwl; omega
          have htk : l.rd.data.take l.n = l.rd.data := List.take_of_length_le (by omega)
          split
          · refine ⟨_, _, _, rfl, ⟨rfl, by simp, hc.1, ?_⟩, by omega, by rw [← htk]; exact hn⟩
            simpa using hc.2
          · rename_i hl
            obtain ⟨s1, bs, e1, hp⟩ := fill_spec l.rd (by omega)
            have hx := hp.ext hc.1
            simp only [e1]
            have hfuel : s1.cap - s1.data.length + 1 < f ∨ (s1.err ≠ none ∧ 0 < f) := by
              rcases hf with hf | hf
              · cases bs with
                | nil => exact Or.inr ⟨hp.prog rfl, by omega⟩
                | cons a b =>
                  left
                  rw [hp.cap, hp.data]; simp
                  have := hp.fits
                  rw [hp.data] at this; simp at this
                  omega
              · exact absurd he hf.1
            obtain ⟨bs', e, s', h1, h2, h3, h4⟩ := ih (l.rd.data.take l.n).length { l with rd := s1 } hx.inv (by
                simp only [hp.data]
                rw [htk] at hn ⊢
                rw [List.take_take, Nat.min_eq_left (by omega), List.take_append_of_le_length (by omega)]
                simpa using hn) hfuel
            exact ⟨bs', e, s', h1, by simpa using hx.adv.trans h2, h3, h4⟩

theorem limReadSlice_spec (d : UInt8) (l : Lim) (hc : Cap l.rd) :
    ∃ bs e l', l.readSlice d = some ((bs, e), l') ∧ Adv l.rd l'.rd bs ∧ l'.n + bs.length = l.n ∧
      (match e with
      | none => ∃ l, bs = l ++ [d] ∧ d ∉ l
      | some _ => d ∉ bs) := by
  obtain ⟨bs, e, s', h1, h2, h3, h4⟩ := limReadSliceLoop_spec (l.rd.cap + 2) d 0 l hc (by simp)
    (Or.inl (by have := hc.1; omega))
  refine ⟨bs, e, ⟨setLast bs s', l.n - bs.length⟩, ?_, ?_, by simp only; omega, h4⟩
  · unfold Lim.readSlice; rw [h1]; rfl
  · simp only [setLast]; split
    · exact ⟨h2.cap, h2.stream, h2.inv⟩
    · exact h2

/-! ### Progress on clean scripts -/

theorem srcRead_clean (src : Script) (m : Nat) (hm : 0 < m) (hc : Clean src) (hne : bytesOf src ≠ []) :
    (srcRead src m).1 ≠ [] ∧ (srcRead src m).2.1 = none ∧ Clean (srcRead src m).2.2 := by
  cases src with
  | nil => simp [bytesOf] at hne
  | cons c rest =>
    obtain ⟨bs, e⟩ := c
    have h1 := hc (bs, e) (by simp)
    have h2 : Clean rest := fun c hm => hc c (by simp [hm])
    simp only [srcRead]
    split
    · exact ⟨h1.1, h1.2, h2⟩
    · rename_i hl
      refine ⟨?_, rfl, ?_⟩
      · simp; exact ⟨by omega, h1.1⟩
      · intro c hcm
        simp at hcm
        rcases hcm with rfl | hcm
        · simp only; refine ⟨?_, h1.2⟩
          simp; omega
        · exact h2 c hcm

theorem fill_clean (s s' : Rd) (hf : s.data.length < s.cap) (he : s.err = none) (hc : Clean s.src)
    (hne : bytesOf s.src ≠ []) (h : fill s = some s') :
    s.data.length < s'.data.length ∧ s'.err = none ∧ Clean s'.src := by
  have h1 := srcRead_clean s.src (s.cap - s.data.length) (by omega) hc hne
  simp only [fill] at h
  rw [if_neg (by omega)] at h
  unfold fillLoop at h
  generalize srcRead s.src (s.cap - s.data.length) = q at h1 h
  obtain ⟨bs, e, src'⟩ := q
  simp only at h1 h
  obtain ⟨hb, rfl, hc'⟩ := h1
  have hbl : bs.length > 0 := List.length_pos_iff.mpr hb
  simp only [hbl, if_true] at h
  simp at h
  subst h
  exact ⟨by simp; exact hbl, he, hc'⟩

theorem peekLoop_clean (f n : Nat) (s s' : Rd) (hc : Cap s) (hcl : Clean s.src) (he : s.err = none)
    (hn : n ≤ s.cap) (hlen : n ≤ (s.data ++ bytesOf s.src).length)
    (h : peekLoop f n s = some s') : n ≤ s'.data.length ∧ s'.err = none ∧ Clean s'.src := by
  induction f generalizing s with
  | zero => simp [peekLoop] at h
  | succ f ih =>
    simp only [peekLoop] at h
    split at h
    · rename_i hg
      obtain ⟨s1, bs, e1, hp⟩ := fill_spec s hg.2.1
      rw [e1] at h
      simp only at h
      have hx := hp.ext hc.1
      have hne : bytesOf s.src ≠ [] := by
        intro hh; simp [hh] at hlen; omega
      have h2 := fill_clean s s1 hg.2.1 he hcl hne e1
      refine ih s1 hx.inv h2.2.2 h2.2.1 (by rw [hp.cap]; exact hn) ?_ h
      rw [hx.stream]; exact hlen
    · rename_i hg
      simp at h; subst h
      refine ⟨?_, he, hcl⟩
      by_cases hlt : s.data.length < n
      · exact absurd ⟨hlt, by omega, he⟩ hg
      · omega

theorem writeToLoop_clean (f : Nat) (acc : Bytes) (l l' : Lim) (bs : Bytes) (e : WErr) (w' : WScript)
    (hc : Cap l.rd) (hcl : Clean l.rd.src) (he : l.rd.err = none) (hn : 0 < l.n)
    (hlen : l.n ≤ (l.rd.data ++ bytesOf l.rd.src).length) (hd : l.rd.data ≠ [])
    (h : l.writeToLoop f acc [] = some (bs, e, l', w')) : l'.n = 0 ∧ e = .nil := by
  induction f generalizing acc l with
  | zero => simp [Lim.writeToLoop] at h
  | succ f ih =>
    simp only [Lim.writeToLoop] at h
    rw [if_pos (List.length_pos_iff.mpr hd)] at h
    obtain ⟨bs1, failed, l1, w1, h1, h2, h3, h4, h5, h6⟩ := writeBuf_spec l [] hc
    obtain ⟨rfl, rfl⟩ := h6 rfl
    have h5 := h5 rfl
    rw [h1] at h
    simp only [Bool.false_eq_true, if_false] at h
    split at h
    · rename_i hz
      simp at h
      obtain ⟨_, rfl, rfl, _⟩ := h
      exact ⟨hz, rfl⟩
    · rename_i hz
      have hbl : bs1.length = min l.n l.rd.data.length := by rw [h5.1, List.length_take]
      have hd1 : l1.rd.data = [] := by rw [h5.2, List.drop_eq_nil_of_le (by omega)]
      obtain ⟨rd2, bs2, e2, hp⟩ := fill_spec l1.rd (by rw [hd1]; exact h2.inv.1)
      have hx := hp.ext h2.inv.1
      simp only [e2] at h
      have hsrc : l1.rd.src = l.rd.src := by
        have : (l.writeBuf []).2.2.1 = l1 := by rw [h1]
        rw [← this]; simp [Lim.writeBuf, wrWrite]
      have hst := congrArg List.length h2.stream
      simp only [List.length_append] at hst hlen
      have hne : bytesOf l1.rd.src ≠ [] := by
        intro hh
        simp [hh, hd1] at hst
        omega
      have h8 := fill_clean l1.rd rd2 (by rw [hd1]; exact h2.inv.1) (h4.trans he) (by rw [hsrc]; exact hcl) hne e2
      refine ih _ { l1 with rd := rd2 } hx.inv h8.2.2 h8.2.1 (by simp only; omega) ?_ ?_ h
      · show l1.n ≤ _
        rw [hx.stream, List.length_append]; omega
      · intro hh
        have h9 : rd2.data = [] := hh
        have := h8.1
        rw [h9] at this
        simp at this

theorem writeTo_clean (l l' : Lim) (bs : Bytes) (e : WErr) (w' : WScript) (hc : Cap l.rd)
    (hcl : Clean l.rd.src) (he : l.rd.err = none)
    (hlen : l.n ≤ (l.rd.data ++ bytesOf l.rd.src).length)
    (h : l.writeTo [] = some (bs, e, l', w')) : l'.n = 0 ∧ e = .nil := by
  unfold Lim.writeTo at h
  split at h
  · rename_i h0
    simp at h
    obtain ⟨_, rfl, rfl, _⟩ := h
    exact ⟨h0, rfl⟩
  · rename_i h0
    obtain ⟨bs1, failed, l1, w1, h1, h2, h3, h4, h5, h6⟩ := writeBuf_spec l [] hc
    obtain ⟨rfl, rfl⟩ := h6 rfl
    have h5 := h5 rfl
    rw [h1] at h
    simp only [Bool.false_eq_true, if_false] at h
    split at h
    · rename_i hz
      simp at h
      obtain ⟨_, rfl, rfl, _⟩ := h
      exact ⟨hz, rfl⟩
    · rename_i hz
      have hbl : bs1.length = min l.n l.rd.data.length := by rw [h5.1, List.length_take]
      have hd1 : l1.rd.data = [] := by rw [h5.2, List.drop_eq_nil_of_le (by omega)]
      have hlt : l1.rd.data.length < l1.rd.cap := by rw [hd1]; exact h2.inv.1
      rw [if_pos hlt] at h
      obtain ⟨rd2, bs2, e2, hp⟩ := fill_spec l1.rd hlt
      have hx := hp.ext h2.inv.1
      simp only [e2] at h
      have hsrc : l1.rd.src = l.rd.src := by
        have : (l.writeBuf []).2.2.1 = l1 := by rw [h1]
        rw [← this]; simp [Lim.writeBuf, wrWrite]
      have hst := congrArg List.length h2.stream
      simp only [List.length_append] at hst hlen
      have hne : bytesOf l1.rd.src ≠ [] := by
        intro hh
        simp [hh, hd1] at hst
        omega
      have h8 := fill_clean l1.rd rd2 hlt (h4.trans he) (by rw [hsrc]; exact hcl) hne e2
      refine writeToLoop_clean _ _ { l1 with rd := rd2 } l' bs e w' hx.inv h8.2.2 h8.2.1 (by simp only; omega) ?_ ?_ h
      · show l1.n ≤ _
        rw [hx.stream, List.length_append]; omega
      · intro hh
        have h9 : rd2.data = [] := hh
        have := h8.1
        rw [h9] at this
        simp at this

end Verif.Bufio
