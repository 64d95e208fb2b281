import Verif.Tunnel.Process
set_option linter.unusedSimpArgs false
set_option linter.unusedVariables false
namespace Verif.Tunnel
open Verif Bufio

theorem bytesOf_nil : bytesOf [] = [] := rfl

theorem srcRead_measure (src : Script) (m : Nat) (hm : 0 < m) (bs : Bytes) (src' : Script)
    (h : srcRead src m = (bs, none, src')) :
    (bytesOf src').length + bs.length = (bytesOf src).length ∧
    (src'.length < src.length ∨ (src'.length = src.length ∧ 0 < bs.length)) := by
  cases src with
  | nil => simp [srcRead] at h
  | cons c rest =>
    obtain ⟨cs, e⟩ := c
    simp only [srcRead] at h
    split at h
    · simp at h; obtain ⟨rfl, rfl, rfl⟩ := h
      simp [bytesOf]; omega
    · rename_i hl
      simp at h; obtain ⟨rfl, rfl⟩ := h
      simp [bytesOf]; omega

theorem read_nonerr (s s' : Rd) (m : Nat) (hm : 0 < m) (hc : Cap s) (bs : Bytes)
    (h : Bufio.read m s = ((bs, none), s')) : procFuel s' < procFuel s := by
  unfold Bufio.read at h
  rw [if_neg (by omega)] at h
  have hc1 := hc.1
  split at h
  · rename_i h0
    have h0' : s.data = [] := List.length_eq_zero_iff.mp h0
    split at h
    · rename_i he
      simp at h; exact absurd h.1.2 he
    · split at h
      · generalize hq : srcRead s.src m = q at h
        obtain ⟨b, e, src'⟩ := q
        simp at h
        obtain ⟨⟨rfl, rfl⟩, rfl⟩ := h
        have := srcRead_measure s.src m hm _ _ hq
        simp [procFuel, h0']; omega
      · generalize hq : srcRead s.src s.cap = q at h
        obtain ⟨b, e, src'⟩ := q
        simp only at h
        split at h
        · rename_i hb
          simp at h
          obtain ⟨⟨rfl, rfl⟩, rfl⟩ := h
          have := srcRead_measure s.src s.cap hc1 _ _ hq
          simp [procFuel, h0']; omega
        · rename_i hb
          simp at h
          obtain ⟨rfl, rfl⟩ := h
          cases e with
          | none =>
            have := srcRead_measure s.src s.cap hc1 _ _ hq
            simp [procFuel, h0']; omega
          | some e =>
            cases hs : s.src with
            | nil => rw [hs] at hq; simp [srcRead] at hq; simp [hq.1] at hb
            | cons c rest =>
              rw [hs] at hq
              simp only [srcRead] at hq
              split at hq
              · simp at hq
                obtain ⟨rfl, _, rfl⟩ := hq
                simp [procFuel, h0', hs, bytesOf]; omega
              · simp at hq
  · rename_i h0
    simp at h
    obtain ⟨rfl, rfl⟩ := h
    simp [procFuel]; omega

/-- `Read` reports an error only with nothing left in the buffer (and no bytes). -/
theorem read_err (s s' : Rd) (m : Nat) (hm : 0 < m) (hm2 : m < s.cap) (bs : Bytes) (e : Err)
    (h : Bufio.read m s = ((bs, some e), s')) : bs = [] ∧ s'.data = [] := by
  unfold Bufio.read at h
  rw [if_neg (by omega)] at h
  split at h
  · rename_i h0
    have h0' : s.data = [] := List.length_eq_zero_iff.mp h0
    split at h
    · simp at h; obtain ⟨⟨rfl, _⟩, rfl⟩ := h; exact ⟨rfl, h0'⟩
    · rw [if_neg (by omega)] at h
      generalize srcRead s.src s.cap = q at h
      obtain ⟨b, e', src'⟩ := q
      simp only at h
      split at h
      · simp at h; obtain ⟨⟨rfl, _⟩, rfl⟩ := h; exact ⟨rfl, h0'⟩
      · simp at h
  · simp at h

theorem payloadS_append (a b : List SFrame) : payloadS (a ++ b) = payloadS a ++ payloadS b := by
  simp [payloadS]
theorem payloadC_append (a b : List CFrame) : payloadC (a ++ b) = payloadC a ++ payloadC b := by
  simp [payloadC]

/-- Shape of the loop's frames: data frames of `id` with 1..4086 bytes. -/
def DataOf (id : Nat) (f : SFrame) : Prop := ∃ p, f = .data id p ∧ 0 < p.length ∧ p.length ≤ 4086

theorem procLoop_spec (id : Nat) (f : Nat) (s : Rd) (hc : Cap s) (hcap : s.cap = 4096) (hf : procFuel s ≤ f) :
    ∃ frs s', procLoop id f s = some (frs, s') ∧ s.data ++ bytesOf s.src = payloadS frs ++ bytesOf s'.src ∧
      s'.data = [] ∧ (∀ x ∈ frs, DataOf id x) := by
  induction f generalizing s with
  | zero => simp [procFuel] at hf
  | succ f ih =>
    obtain ⟨bs, e, s', h1, h2, h3, h4⟩ := read_spec 4086 s hc
    unfold procLoop
    rw [h1]
    simp only
    have hfr : payloadS (if bs.length > 0 then [SFrame.data id bs] else []) = bs := by
      split
      · simp [payloadS, SFrame.payload]
      · rename_i hb
        have : bs = [] := List.length_eq_zero_iff.mp (by omega)
        simp [payloadS, this]
    have hall : ∀ x ∈ (if bs.length > 0 then [SFrame.data id bs] else []), DataOf id x := by
      intro x hx
      split at hx
      · simp at hx; exact ⟨bs, hx, by assumption, h4⟩
      · simp at hx
    cases e with
    | some e =>
      obtain ⟨hb, hd⟩ := read_err s s' 4086 (by omega) (by omega) bs e h1
      refine ⟨_, s', rfl, ?_, hd, hall⟩
      rw [hfr, h2.stream, hd]; simp
    | none =>
      have hlt := read_nonerr s s' 4086 (by omega) hc bs h1
      obtain ⟨frs, s2, e2, e3, e4, e5⟩ := ih s' h2.inv (h2.cap.trans hcap) (by omega)
      simp only [e2]
      refine ⟨_, s2, rfl, ?_, e4, ?_⟩
      · rw [payloadS_append, hfr, h2.stream, e3]; simp
      · intro x hx
        rcases List.mem_append.mp hx with hx | hx
        · exact hall x hx
        · exact e5 x hx

theorem procFirst_spec (s : Rd) (hc : Cap s) :
    ∃ s', procFirst s = some (s.data.take 4084, s') ∧ Adv s s' (s.data.take 4084) := by
  unfold procFirst
  split
  · rename_i h0
    have hcap : s.data.length ≤ s.cap := by have := hc.2; omega
    have hpl : peekLoop (s.cap + 2) s.data.length { s with last := none } = some { s with last := none } := by
      unfold peekLoop
      rw [if_neg (by simp)]
    have hp : peek s.data.length s = some ((s.data, none), { s with last := none }) := by
      unfold peek
      rw [hpl]
      simp only
      rw [if_neg (by omega), if_neg (by omega)]
      simp
    rw [hp]
    simp only
    obtain ⟨k, e, s', bs, h1, h2, h3, h4, h5, h6⟩ := discard_spec (s.data.take 4084).length { s with last := none } (hc.noLast none)
    have hk : k = (s.data.take 4084).length := by
      have hd : discard (s.data.take 4084).length { s with last := none } =
          some (((s.data.take 4084).length, none),
            { s with last := none, r := s.r + (s.data.take 4084).length, data := s.data.drop (s.data.take 4084).length }) := by
        unfold Bufio.discard
        have hpos : 0 < (s.data.take 4084).length := by simp; omega
        have hle : (s.data.take 4084).length ≤ s.data.length := by simp; omega
        rw [if_neg (by omega)]
        unfold discardLoop
        simp only
        rw [if_neg (by omega)]
        simp only
        rw [Nat.min_eq_right hle]
        simp
      rw [hd] at h1
      simp only [Option.some.injEq, Prod.mk.injEq] at h1
      exact h1.1.1.symm
    have he : e = none := h6.mpr hk
    rw [h1, he]
    simp only
    have hbs : bs = s.data.take 4084 := by
      have hst := h2.stream
      simp only at hst
      have : bs = (s.data ++ bytesOf s.src).take bs.length := by rw [hst]; simp
      rw [this, h4, hk, List.take_append_of_le_length (by simp; omega)]
      simp
    refine ⟨s', rfl, ⟨h2.cap, ?_, h2.inv⟩⟩
    have hst := h2.stream
    simp only at hst
    rw [hst, hbs]
  · rename_i h0
    have h0' : s.data = [] := List.length_eq_zero_iff.mp (by omega)
    refine ⟨s, by simp [h0'], ?_⟩
    simp [h0']
    exact ⟨rfl, by simp [h0'], hc⟩

theorem serverProcess_spec (id si : Nat) (byRemote : Bool) (s : Rd) (hc : Cap s) (hcap : s.cap = 4096) :
    ∃ p frs s', serverProcess id si byRemote s =
        some (SFrame.open_ id si p :: frs ++ (if byRemote then [] else [.closeTask id]), s') ∧
      s.data ++ bytesOf s.src = p ++ payloadS frs ++ bytesOf s'.src ∧ s'.data = [] ∧
      p = s.data.take 4084 ∧ (∀ x ∈ frs, DataOf id x) := by
  obtain ⟨s1, h1, h2⟩ := procFirst_spec s hc
  obtain ⟨frs, s2, h3, h4, h5, h6⟩ := procLoop_spec id (procFuel s1) s1 h2.inv (h2.cap.trans hcap) (Nat.le_refl _)
  refine ⟨_, frs, s2, ?_, ?_, h5, rfl, h6⟩
  · unfold serverProcess; rw [h1]; simp only [h3]
  · rw [h2.stream, h4]; simp

/-- Shape of the client's data frames. -/
def CDataOf (id : Nat) (f : CFrame) : Prop := ∃ p, f = .data id p ∧ 0 < p.length ∧ p.length ≤ 4086

theorem taskLoop_spec (id : Nat) (f : Nat) (src : Script) (hf : (bytesOf src).length + src.length < f) :
    ∃ frs src', taskLoop id f src = some (frs, src') ∧ bytesOf src = payloadC frs ++ bytesOf src' ∧
      (∀ x ∈ frs, CDataOf id x) := by
  induction f generalizing src with
  | zero => omega
  | succ f ih =>
    have h1 := srcRead_spec src 4086
    have hm := srcRead_measure src 4086 (by omega)
    unfold taskLoop
    generalize srcRead src 4086 = q at h1 hm ⊢
    obtain ⟨bs, e, src'⟩ := q
    simp only at h1 hm ⊢
    have hfr : payloadC (if bs.length > 0 then [CFrame.data id bs] else []) = bs := by
      split
      · simp [payloadC, CFrame.payload]
      · rename_i hb
        have : bs = [] := List.length_eq_zero_iff.mp (by omega)
        simp [payloadC, this]
    have hall : ∀ x ∈ (if bs.length > 0 then [CFrame.data id bs] else []), CDataOf id x := by
      intro x hx
      split at hx
      · simp at hx; exact ⟨bs, hx, by assumption, h1.2⟩
      · simp at hx
    cases e with
    | some e => exact ⟨_, src', rfl, by rw [hfr, h1.1], hall⟩
    | none =>
      have := hm bs src' rfl
      obtain ⟨frs, s2, e2, e3, e5⟩ := ih src' (by omega)
      simp only [e2]
      refine ⟨_, s2, rfl, ?_, ?_⟩
      · rw [payloadC_append, hfr, h1.1, e3]; simp
      · intro x hx
        rcases List.mem_append.mp hx with hx | hx
        · exact hall x hx
        · exact e5 x hx

theorem clientProcess_spec (id : Nat) (byRemote : Bool) (src : Script) :
    ∃ frs src', clientProcess id byRemote src = some (frs ++ (if byRemote then [] else [.closeTask id]), src') ∧
      bytesOf src = payloadC frs ++ bytesOf src' ∧ (∀ x ∈ frs, CDataOf id x) := by
  obtain ⟨frs, src', h1, h2, h3⟩ := taskLoop_spec id ((bytesOf src).length + src.length + 1) src (by omega)
  exact ⟨frs, src', by unfold clientProcess; rw [h1], h2, h3⟩

/-! ### A connection that ends normally is sent completely -/

/-- The peer sends chunks and then closes (no read error before the end of the stream). -/
def NoErr (src : Script) : Prop := ∀ c ∈ src, c.2 = none

theorem srcRead_noErr (src : Script) (m : Nat) (h : NoErr src) :
    NoErr (srcRead src m).2.2 ∧ ((srcRead src m).2.1 = none ∨ (srcRead src m).2.2 = []) := by
  cases src with
  | nil => simp [srcRead, NoErr]
  | cons c rest =>
    obtain ⟨bs, e⟩ := c
    have he : e = none := h (bs, e) (by simp)
    have hr : NoErr rest := fun c hc => h c (by simp [hc])
    simp only [srcRead]
    split
    · exact ⟨hr, Or.inl he⟩
    · refine ⟨?_, Or.inl rfl⟩
      intro c hc
      simp at hc
      rcases hc with rfl | hc
      · exact he
      · exact hr c hc

theorem read_noErr (s : Rd) (m : Nat) (hm : 0 < m) (hm2 : m < s.cap) (h : NoErr s.src) (he : s.err = none ∨ s.src = []) :
    NoErr (Bufio.read m s).2.src ∧ ((Bufio.read m s).2.err = none ∨ (Bufio.read m s).2.src = []) ∧
    ((Bufio.read m s).1.2 = none ∨ (Bufio.read m s).2.src = []) := by
  unfold Bufio.read
  rw [if_neg (by omega)]
  split
  · split
    · rename_i hne
      rcases he with he | he
      · exact absurd he hne
      · exact ⟨h, Or.inl rfl, Or.inr he⟩
    · rw [if_neg (by omega)]
      have hs := srcRead_noErr s.src s.cap h
      generalize srcRead s.src s.cap = q at hs
      obtain ⟨bs, e, src'⟩ := q
      simp only at hs ⊢
      split
      · exact ⟨hs.1, Or.inl rfl, hs.2⟩
      · exact ⟨hs.1, hs.2, Or.inl rfl⟩
  · exact ⟨h, he, Or.inl rfl⟩

theorem procLoop_noErr (id : Nat) (f : Nat) (s s' : Rd) (hcap : s.cap = 4096) (hc : Cap s) (h : NoErr s.src)
    (he : s.err = none ∨ s.src = []) (frs : List SFrame) (hr : procLoop id f s = some (frs, s')) : s'.src = [] := by
  induction f generalizing s frs with
  | zero => simp [procLoop] at hr
  | succ f ih =>
    have h1 := read_noErr s 4086 (by omega) (by omega) h he
    obtain ⟨bs, e, s1, h2, h3, _, _⟩ := read_spec 4086 s hc
    rw [h2] at h1
    unfold procLoop at hr
    rw [h2] at hr
    simp only at hr h1
    cases e with
    | some e =>
      simp at hr; obtain ⟨_, rfl⟩ := hr
      rcases h1.2.2 with h1 | h1
      · simp at h1
      · exact h1
    | none =>
      simp only at hr
      cases hx : procLoop id f s1 with
      | none => rw [hx] at hr; simp at hr
      | some q =>
        obtain ⟨frs', s2⟩ := q
        rw [hx] at hr
        simp at hr
        obtain ⟨_, rfl⟩ := hr
        exact ih s1 (h3.cap.trans hcap) h3.inv h1.1 h1.2.1 frs' hx

theorem procFirst_src (s s' : Rd) (hc : Cap s) (p : Bytes) (h : procFirst s = some (p, s')) :
    s'.src = s.src ∧ s'.err = s.err := by
  unfold procFirst at h
  split at h
  · rename_i h0
    have hcap : s.data.length ≤ s.cap := by have := hc.2; omega
    have hpl : peekLoop (s.cap + 2) s.data.length { s with last := none } = some { s with last := none } := by
      unfold peekLoop
      rw [if_neg (by simp)]
    have hp : peek s.data.length s = some ((s.data, none), { s with last := none }) := by
      unfold peek
      rw [hpl]
      simp only
      rw [if_neg (by omega), if_neg (by omega)]
      simp
    rw [hp] at h
    simp only at h
    have hd : Bufio.discard (s.data.take 4084).length { s with last := none } =
        some (((s.data.take 4084).length, none),
          { s with last := none, r := s.r + (s.data.take 4084).length, data := s.data.drop (s.data.take 4084).length }) := by
      unfold Bufio.discard
      have hpos : 0 < (s.data.take 4084).length := by simp; omega
      have hle : (s.data.take 4084).length ≤ s.data.length := by simp; omega
      rw [if_neg (by omega)]
      unfold discardLoop
      simp only
      rw [if_neg (by omega)]
      simp only
      rw [Nat.min_eq_right hle]
      simp
    rw [hd] at h
    simp at h
    obtain ⟨_, rfl⟩ := h
    exact ⟨rfl, rfl⟩
  · simp at h; obtain ⟨_, rfl⟩ := h; exact ⟨rfl, rfl⟩

theorem serverProcess_noErr (id si : Nat) (byRemote : Bool) (s : Rd) (hc : Cap s) (hcap : s.cap = 4096)
    (h : NoErr s.src) (he : s.err = none ∨ s.src = []) :
    ∃ p frs s', serverProcess id si byRemote s =
        some (SFrame.open_ id si p :: frs ++ (if byRemote then [] else [.closeTask id]), s') ∧
      p ++ payloadS frs = s.data ++ bytesOf s.src ∧
      p = s.data.take 4084 ∧ (∀ x ∈ frs, DataOf id x) := by
  obtain ⟨p, frs, s', h1, h2, h3, h4, h5⟩ := serverProcess_spec id si byRemote s hc hcap
  refine ⟨p, frs, s', h1, ?_, h4, h5⟩
  have : s'.src = [] := by
    unfold serverProcess at h1
    obtain ⟨s1, e1, e2⟩ := procFirst_spec s hc
    obtain ⟨e3, e4⟩ := procFirst_src s s1 hc _ e1
    rw [e1] at h1
    simp only at h1
    cases hx : procLoop id (procFuel s1) s1 with
    | none => rw [hx] at h1; simp at h1
    | some q =>
      obtain ⟨frs', s2⟩ := q
      rw [hx] at h1
      simp only [Option.some.injEq, Prod.mk.injEq] at h1
      rw [← h1.2]
      exact procLoop_noErr id _ s1 s2 (e2.cap.trans hcap) e2.inv (by rw [e3]; exact h) (by rw [e3, e4]; exact he) frs' hx
  rw [h2, this]; simp [bytesOf]

theorem taskLoop_noErr (id : Nat) (f : Nat) (src src' : Script) (h : NoErr src) (frs : List CFrame)
    (hr : taskLoop id f src = some (frs, src')) : src' = [] := by
  induction f generalizing src frs with
  | zero => simp [taskLoop] at hr
  | succ f ih =>
    have h1 := srcRead_noErr src 4086 h
    unfold taskLoop at hr
    generalize srcRead src 4086 = q at h1 hr
    obtain ⟨bs, e, s1⟩ := q
    simp only at hr h1
    cases e with
    | some e =>
      simp at hr; obtain ⟨_, rfl⟩ := hr
      rcases h1.2 with h1 | h1
      · simp at h1
      · exact h1
    | none =>
      simp only at hr
      cases hx : taskLoop id f s1 with
      | none => rw [hx] at hr; simp at hr
      | some q =>
        obtain ⟨frs', s2⟩ := q
        rw [hx] at hr
        simp at hr
        obtain ⟨_, rfl⟩ := hr
        exact ih s1 h1.1 frs' hx

theorem clientProcess_noErr (id : Nat) (byRemote : Bool) (src : Script) (h : NoErr src) :
    ∃ frs src', clientProcess id byRemote src = some (frs ++ (if byRemote then [] else [.closeTask id]), src') ∧
      payloadC frs = bytesOf src ∧ (∀ x ∈ frs, CDataOf id x) := by
  obtain ⟨frs, src', h1, h2, h3⟩ := taskLoop_spec id ((bytesOf src).length + src.length + 1) src (by omega)
  refine ⟨frs, src', by unfold clientProcess; rw [h1], ?_, h3⟩
  rw [h2, taskLoop_noErr id _ src src' h frs h1]; simp [bytesOf]

end Verif.Tunnel
