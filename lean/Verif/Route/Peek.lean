import Verif.Route.Lemmas
set_option linter.unusedSimpArgs false
namespace Verif.Route
open Verif Verif.Bufio

/-- The remaining stream of a reader. -/
def stream (s : Rd) : Bytes := s.data ++ bytesOf s.src

theorem peek_buffered (s : Rd) (hc : Cap s) :
    peek s.data.length s = some ((s.data, none), { s with last := none }) := by
  unfold peek
  have h : peekLoop (s.cap + 2) s.data.length { s with last := none } = some { s with last := none } := by
    simp [peekLoop]
  rw [h]
  have := hc.2
  simp only
  rw [if_neg (by omega), if_neg (by omega)]
  simp

theorem peek_clean (n : Nat) (s : Rd) (hc : Cap s) (hcl : Clean s.src) (he : s.err = none) (hn : n ≤ s.cap)
    (hlen : n ≤ (stream s).length) :
    ∃ bs s', peek n s = some ((bs, none), s') ∧ Clean s'.src ∧ s'.err = none := by
  obtain ⟨s1, h1, h2, h3⟩ := peekLoop_total (s.cap + 2) n { s with last := none } hc (Or.inl (by
    have := hc.1; simp only; omega))
  have h4 := peekLoop_clean _ n { s with last := none } s1 hc hcl he hn hlen h1
  refine ⟨s1.data.take n, s1, ?_, h4.2.2, h4.2.1⟩
  unfold peek
  rw [h1]
  have hcap1 : s1.cap = s.cap := h2.cap
  simp only
  rw [if_neg (by omega), if_neg (by omega)]

/-- No line of `S` decides within its first `k` bytes. -/
def NotWithin (target S : Bytes) (k : Nat) : Prop :=
  (∀ x len, FirstHeader target S x len → k < len) ∧ (∀ len, HeadersEndFirst target S len → k < len)

theorem more_notWithin {trim : Bytes → Bytes} {target hs t : Bytes} (h : ScanOk trim target hs .more) :
    NotWithin target (hs ++ t) hs.length := by
  have hm := more_undecided h
  constructor
  · rintro x len ⟨pre, rest, h1, h2, rfl⟩
    by_cases hle : (pre ++ (target ++ x)).length + 1 ≤ hs.length
    · obtain ⟨r', h3⟩ := lineAt_prefix h1 rfl hle
      exact absurd ⟨x, rfl⟩ (hm _ _ _ h3).1
    · omega
  · rintro len ⟨pre, line, rest, h1, h2, h3, h4, rfl⟩
    by_cases hle : (pre ++ line).length + 1 ≤ hs.length
    · obtain ⟨r', h3⟩ := lineAt_prefix h1 rfl hle
      exact absurd h4 (hm _ _ _ h3).2
    · omega

/-- What the search reports about the whole stream `S`. -/
def Reports (trim : Bytes → Bytes) (target S : Bytes) : Except HErr Bytes → Prop
  | .ok v => ∃ x len, FirstHeader target S x len ∧ v = trim x ∧ 1 ≤ v.length ∧ v.length ≤ 512
  | .error .invalidLength => ∃ x len, FirstHeader target S x len ∧ ¬ (1 ≤ (trim x).length ∧ (trim x).length ≤ 512)
  | .error .noHost => ∃ len, HeadersEndFirst target S len
  | .error .invalidProto => NotWithin target S 2049
  | .error (.read _) => ∃ k, NotWithin target S k

theorem NotWithin.mono {target S : Bytes} {k j : Nat} (h : NotWithin target S k) (hj : j ≤ k) : NotWithin target S j :=
  ⟨fun x l hh => Nat.lt_of_le_of_lt hj (h.1 x l hh), fun l hh => Nat.lt_of_le_of_lt hj (h.2 l hh)⟩

theorem peekHeaderLoop_spec (trim : Bytes → Bytes) (target : Bytes) (f : Nat) (s : Rd) (hc : Cap s)
    (hcap : 2049 ≤ s.cap) (hf : 2050 - s.data.length < f) (hf0 : 0 < f) :
    ∃ res s', peekHeaderLoop trim target f s = some (res, s') ∧ stream s' = stream s ∧ Cap s' ∧ s'.cap = s.cap ∧
      Reports trim target (stream s) res ∧
      (Clean s.src → s.err = none → Clean s'.src ∧
        (∀ e, res = .error (.read e) → NotWithin target (stream s) (stream s).length)) := by
  induction f generalizing s with
  | zero => omega
  | succ f ih =>
    simp only [peekHeaderLoop]
    rw [peek_buffered s hc]
    simp only
    have hs := scan_spec trim target s.data
    have hst : stream { s with last := none } = stream s := rfl
    generalize scanLoop trim target s.data s.data 0 0 = sc at hs
    cases sc with
    | found v =>
      obtain ⟨x, len, h1, h2⟩ := hs
      exact ⟨_, _, rfl, hst, hc, rfl, ⟨x, len, h1.ext _, h2⟩, fun h _ => ⟨h, by simp⟩⟩
    | bad =>
      obtain ⟨x, len, h1, h2⟩ := hs
      exact ⟨_, _, rfl, hst, hc, rfl, ⟨x, len, h1.ext _, h2⟩, fun h _ => ⟨h, by simp⟩⟩
    | endOfHeaders =>
      obtain ⟨len, h1⟩ := hs
      exact ⟨_, _, rfl, hst, hc, rfl, ⟨len, h1.ext _⟩, fun h _ => ⟨h, by simp⟩⟩
    | more =>
      have hnw := more_notWithin (t := bytesOf s.src) hs
      simp only
      split
      · rename_i hn
        simp [maxHeader] at hn
        exact ⟨_, _, rfl, hst, hc, rfl, hnw.mono (by omega), fun h _ => ⟨h, by simp⟩⟩
      · rename_i hn
        simp [maxHeader] at hn
        obtain ⟨bs, e, s1, h1, h2, h3, h4, h5, h6⟩ := peek_spec (s.data.length + 1) { s with last := none } hc
        rw [h1]
        have hst1 : stream s1 = stream s := h2.stream
        cases e with
        | some e =>
          refine ⟨_, _, rfl, hst1, h2.inv, h2.cap, ⟨_, hnw⟩, ?_⟩
          intro hcl he
          by_cases hlen : s.data.length + 1 ≤ (stream s).length
          · obtain ⟨bs', s'', g1, g2, g3⟩ := peek_clean (s.data.length + 1) { s with last := none } hc hcl he (by
              simp only; omega) hlen
            rw [h1] at g1
            simp at g1
          · refine ⟨?_, fun _ _ => hnw.mono (by omega)⟩
            have hb : bytesOf s.src = [] := by
              simp only [stream, List.length_append] at hlen
              exact List.length_eq_zero_iff.mp (by omega)
            have hsrc : s.src = [] := by
              cases hh : s.src with
              | nil => rfl
              | cons c rest =>
                rw [hh, bytesOf_cons] at hb
                simp at hb
                exact absurd hb.1 (hcl c (by simp [hh])).1
            -- an exhausted script stays exhausted
            have key : ∀ f n (a b : Rd), a.src = [] → peekLoop f n a = some b → b.src = [] := by
              intro f
              induction f with
              | zero => intro n a b _ h; simp [peekLoop] at h
              | succ f ih =>
                intro n a b ha h
                simp only [peekLoop] at h
                split at h
                · split at h
                  · simp at h
                  · rename_i a1 hfill
                    refine ih n a1 b ?_ h
                    simp only [fill] at hfill
                    split at hfill
                    · simp at hfill
                    · unfold fillLoop at hfill
                      simp [ha, srcRead] at hfill
                      rw [← hfill]
                · simp at h; rw [← h]; exact ha
            unfold peek at h1
            split at h1
            · simp at h1
            · rename_i s2 hpl
              have := key _ _ { s with last := none } _ hsrc hpl
              split at h1
              · simp at h1; rw [← h1.2, this]; simp [Clean]
              · split at h1
                · simp [readErr] at h1; rw [← h1.2]; simp [this, Clean]
                · simp at h1
        | none =>
          simp only
          obtain ⟨hbl, _⟩ := h4.mp rfl
          have hd1 : s.data.length + 1 ≤ s1.data.length := by
            have := congrArg List.length h3
            rw [List.length_take, hbl] at this; omega
          obtain ⟨res, s', g1, g2, g3, g4, g5, g6⟩ := ih s1 h2.inv (by rw [h2.cap]; exact hcap) (by omega) (by omega)
          rw [hst1] at g2 g5 g6
          refine ⟨res, s', g1, g2, g3, g4.trans h2.cap, g5, ?_⟩
          intro hcl he
          have hlen : s.data.length + 1 ≤ (stream s).length := by
            rw [← hst1]; simp only [stream, List.length_append]; omega
          obtain ⟨bs', s'', k1, k2, k3⟩ := peek_clean (s.data.length + 1) { s with last := none } hc hcl he (by
              simp only; omega) hlen
          rw [h1] at k1
          simp at k1
          obtain ⟨_, rfl⟩ := k1
          exact g6 k2 k3

theorem peekHeader_spec (trim : Bytes → Bytes) (target : Bytes) (s : Rd) (hc : Cap s) (hcap : 2049 ≤ s.cap) :
    ∃ res s', peekHeader trim target s = some (res, s') ∧ stream s' = stream s ∧ Cap s' ∧ s'.cap = s.cap ∧
      Reports trim target (stream s) res ∧
      (Clean s.src → s.err = none → Clean s'.src ∧
        (∀ e, res = .error (.read e) → NotWithin target (stream s) (stream s).length)) :=
  peekHeaderLoop_spec trim target (maxHeader + 3) s hc hcap (by simp [maxHeader]; omega) (by simp)

end Verif.Route
