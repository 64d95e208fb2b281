import Verif.Route.Spec
import Verif.Bufio.Lemmas
set_option linter.unusedSimpArgs false
namespace Verif.Route
open Verif Verif.Bufio

theorem take_line (u r : Bytes) (n : Nat) (h : u.length < n) :
    (u ++ 10 :: r).take n = u ++ 10 :: r.take (n - u.length - 1) := by
  rw [List.take_append, List.take_of_length_le (by omega)]
  congr 1
  have : n - u.length = (n - u.length - 1) + 1 := by omega
  rw [this]
  simp

/-- Two ways to cut a text into "complete lines, then an unfinished line" agree. -/
theorem cut_unique {a l pre cur : Bytes} (h : a ++ l = pre ++ cur) (hl : (10 : UInt8) ∉ l) (hc : (10 : UInt8) ∉ cur)
    (ha : a = [] ∨ a.getLast? = some 10) (hp : pre = [] ∨ pre.getLast? = some 10) : a = pre ∧ l = cur := by
  have key : ∀ {a l pre cur : Bytes}, a ++ l = pre ++ cur → (10 : UInt8) ∉ l →
      (pre = [] ∨ pre.getLast? = some 10) → pre.length ≤ a.length := by
    intro a l pre cur h hl hp
    rcases hp with rfl | hp
    · simp
    · by_cases hlt : a.length < pre.length
      · exfalso
        apply hl
        have hne : pre ≠ [] := by intro hh; simp [hh] at hp
        have hpos : 0 < pre.length := List.length_pos_iff.mpr hne
        have h1 : (a ++ l)[pre.length - 1]? = some 10 := by
          rw [h, List.getElem?_append_left (by omega), ← List.getLast?_eq_getElem?]; exact hp
        rw [List.getElem?_append_right (by omega)] at h1
        exact List.mem_of_getElem? h1
      · omega
  have h1 := key h hl hp
  have h2 := key h.symm hc ha
  exact List.append_inj h (by omega)

theorem lineAt_snoc {pre cur a l r : Bytes} (hc : (10 : UInt8) ∉ cur) (hp : pre = [] ∨ pre.getLast? = some 10)
    (h : LineAt (pre ++ cur ++ [10]) a l r) : (a = pre ∧ l = cur) ∨ ∃ r', LineAt pre a l r' := by
  obtain ⟨h1, h2, h3⟩ := h
  rcases List.eq_nil_or_concat r with rfl | ⟨r', b, rfl⟩
  · left
    have := List.append_inj' h1 rfl
    exact cut_unique this.1.symm h2 hc h3 hp
  · right
    have h4 : pre ++ cur = a ++ l ++ 10 :: r' := by
      have : pre ++ cur ++ [10] = (a ++ l ++ 10 :: r') ++ [b] := by rw [h1]; simp
      exact (List.append_inj' this rfl).1
    have hlt : (a ++ l).length < pre.length := by
      by_cases hh : (a ++ l).length < pre.length
      · exact hh
      · exfalso
        apply hc
        have h5 : (pre ++ cur)[(a ++ l).length]? = some 10 := by
          rw [h4, List.getElem?_append_right (Nat.le_refl _)]; simp
        rw [List.getElem?_append_right (by omega)] at h5
        exact List.mem_of_getElem? h5
    have h6 := congrArg (List.take pre.length) h4
    rw [List.take_left' rfl] at h6
    refine ⟨r'.take (pre.length - (a ++ l).length - 1), ?_, h2, h3⟩
    exact h6.trans (take_line _ _ _ hlt)

theorem infix_of_infix_append {p pre cur : Bytes} (hc : (10 : UInt8) ∉ cur)
    (h : p ++ [10] <:+: pre ++ cur) : p ++ [10] <:+: pre := by
  obtain ⟨x, y, h⟩ := h
  have h' : pre ++ cur = (x ++ p) ++ 10 :: y := by rw [← h]; simp
  have hlt : (x ++ p).length < pre.length := by
    by_cases hh : (x ++ p).length < pre.length
    · exact hh
    · exfalso
      apply hc
      have h5 : (pre ++ cur)[(x ++ p).length]? = some 10 := by
        rw [h', List.getElem?_append_right (Nat.le_refl _)]; simp
      rw [List.getElem?_append_right (by omega)] at h5
      exact List.mem_of_getElem? h5
  have h6 := congrArg (List.take pre.length) h'
  rw [List.take_left' rfl, take_line _ _ _ hlt] at h6
  refine ⟨x, y.take (pre.length - (x ++ p).length - 1), ?_⟩
  conv => rhs; rw [h6]
  simp only [List.append_assoc, List.singleton_append]

theorem undecided_nil (target : Bytes) : Undecided target [] := by
  constructor
  · rintro a l r ⟨h, _⟩
    simp at h
  · simp [crlf2]

theorem undecided_snoc {target pre cur : Bytes} (hu : Undecided target pre) (hc : (10 : UInt8) ∉ cur)
    (hp : pre = [] ∨ pre.getLast? = some 10) (ht : ¬ target <+: cur)
    (he : ¬ crlf2 <:+ pre ++ cur ++ [10]) : Undecided target (pre ++ cur ++ [10]) := by
  constructor
  · intro a l r h
    rcases lineAt_snoc hc hp h with ⟨_, rfl⟩ | ⟨r', h⟩
    · exact ht
    · exact hu.1 _ _ _ h
  · intro hi
    rw [List.infix_concat_iff] at hi
    rcases hi with hi | hi
    · exact he hi
    · exact hu.2 (infix_of_infix_append (p := [13, 10, 13]) hc hi)

theorem take_prefix_iff {target hs pre cur rest : Bytes} (h : hs = pre ++ cur ++ rest) :
    ((pre ++ cur).length - pre.length ≥ target.length ∧ (hs.drop pre.length).take target.length = target) ↔
      target <+: cur := by
  subst h
  have : (pre ++ cur ++ rest).drop pre.length = cur ++ rest := by simp
  rw [this]
  simp only [List.length_append, Nat.add_sub_cancel_left, ge_iff_le]
  constructor
  · rintro ⟨h1, h2⟩
    rw [List.take_append_of_le_length h1] at h2
    exact ⟨cur.drop target.length, by conv => lhs; rw [← h2]
                                      rw [List.length_take, Nat.min_eq_left h1, List.take_append_drop]⟩
  · rintro ⟨t, rfl⟩
    refine ⟨by simp, by simp⟩

theorem crlf2_iff {hs d rest : Bytes} (h : hs = d ++ [10] ++ rest) :
    (d.length ≥ 3 ∧ (hs.take (d.length + 1)).drop (d.length - 3) = [13, 10, 13, 10]) ↔ crlf2 <:+ d ++ [10] := by
  subst h
  have : (d ++ [10] ++ rest).take (d.length + 1) = d ++ [10] := by
    rw [List.take_append_of_le_length (by simp), List.take_of_length_le (by simp)]
  rw [this]
  constructor
  · rintro ⟨h1, h2⟩
    exact ⟨(d ++ [10]).take (d.length - 3), by rw [crlf2, ← h2, List.take_append_drop]⟩
  · rintro ⟨t, ht⟩
    have hl := congrArg List.length ht
    simp [crlf2] at hl
    refine ⟨by omega, ?_⟩
    rw [← ht, show d.length - 3 = t.length by omega]
    simp [crlf2]

/-- What one scan of the bytes `hs` reports. -/
def ScanOk (trim : Bytes → Bytes) (target hs : Bytes) : Scan → Prop
  | .found v => ∃ x len, FirstHeader target hs x len ∧ v = trim x ∧ 1 ≤ v.length ∧ v.length ≤ 512
  | .bad => ∃ x len, FirstHeader target hs x len ∧ ¬ (1 ≤ (trim x).length ∧ (trim x).length ≤ 512)
  | .endOfHeaders => ∃ len, HeadersEndFirst target hs len
  | .more => ∃ pre cur, hs = pre ++ cur ∧ (10 : UInt8) ∉ cur ∧ (pre = [] ∨ pre.getLast? = some 10) ∧ Undecided target pre

theorem scanLoop_spec (trim : Bytes → Bytes) (target hs : Bytes) (rest pre cur : Bytes)
    (h : hs = pre ++ cur ++ rest) (hc : (10 : UInt8) ∉ cur) (hp : pre = [] ∨ pre.getLast? = some 10)
    (hu : Undecided target pre) :
    ScanOk trim target hs (scanLoop trim target hs rest (pre ++ cur).length pre.length) := by
  induction rest generalizing pre cur with
  | nil => exact ⟨pre, cur, by simpa using h, hc, hp, hu⟩
  | cons b rest ih =>
    simp only [scanLoop]
    split
    · rename_i hb
      subst hb
      split
      · rename_i hpre
        rw [take_prefix_iff h] at hpre
        obtain ⟨x, rfl⟩ := hpre
        have hx : (hs.take (pre ++ (target ++ x)).length).drop (pre.length + target.length) = x := by
          rw [h, List.take_left' rfl, ← List.append_assoc, List.drop_left' (by simp)]
        rw [hx]
        have hl : FirstHeader target hs x ((pre ++ (target ++ x)).length + 1) :=
          ⟨pre, rest, ⟨h, hc, hp⟩, hu, rfl⟩
        split
        · exact ⟨x, _, hl, by omega⟩
        · exact ⟨x, _, hl, rfl, by omega, by omega⟩
      · rename_i hpre
        rw [take_prefix_iff h] at hpre
        have h2 : hs = (pre ++ cur) ++ [10] ++ rest := by rw [h]; simp
        split
        · rename_i he
          rw [crlf2_iff h2] at he
          exact ⟨_, pre, cur, rest, ⟨h, hc, hp⟩, hu, hpre, he, rfl⟩
        · rename_i he
          rw [crlf2_iff h2] at he
          have := ih (pre ++ cur ++ [10]) [] (by rw [h]; simp) (by simp) (Or.inr (by simp))
            (undecided_snoc hu hc hp hpre he)
          simpa [Nat.add_assoc] using this
    · rename_i hb
      have := ih pre (cur ++ [b]) (by rw [h]; simp) (by simp [hc]; exact fun hh => hb hh.symm) hp hu
      simpa [Nat.add_assoc] using this

theorem scan_spec (trim : Bytes → Bytes) (target hs : Bytes) :
    ScanOk trim target hs (scanLoop trim target hs hs 0 0) := by
  have := scanLoop_spec trim target hs hs [] [] (by simp) (by simp) (Or.inl rfl) (undecided_nil _)
  simpa using this

theorem LineAt.ext {S a l r : Bytes} (h : LineAt S a l r) (t : Bytes) : LineAt (S ++ t) a l (r ++ t) :=
  ⟨by rw [h.1]; simp, h.2⟩

theorem FirstHeader.ext {target S x : Bytes} {n : Nat} (h : FirstHeader target S x n) (t : Bytes) :
    FirstHeader target (S ++ t) x n := by
  obtain ⟨pre, rest, h1, h2⟩ := h
  exact ⟨pre, rest ++ t, h1.ext t, h2⟩

theorem HeadersEndFirst.ext {target S : Bytes} {n : Nat} (h : HeadersEndFirst target S n) (t : Bytes) :
    HeadersEndFirst target (S ++ t) n := by
  obtain ⟨pre, line, rest, h1, h2⟩ := h
  exact ⟨pre, line, rest ++ t, h1.ext t, h2⟩

theorem more_undecided {trim : Bytes → Bytes} {target hs : Bytes} (h : ScanOk trim target hs .more) :
    (∀ a l r, LineAt hs a l r → ¬ target <+: l ∧ ¬ crlf2 <:+ a ++ l ++ [10]) := by
  obtain ⟨pre, cur, rfl, hc, hp, hu⟩ := h
  intro a l r hl
  have h2 := hl.ext [10]
  have hpl : ∃ r', LineAt pre a l r' := by
    have h4 : pre ++ cur = a ++ l ++ 10 :: r := hl.1
    have hlt : (a ++ l).length < pre.length := by
      by_cases hh : (a ++ l).length < pre.length
      · exact hh
      · exfalso
        apply hc
        have h5 : (pre ++ cur)[(a ++ l).length]? = some 10 := by
          rw [h4, List.getElem?_append_right (Nat.le_refl _)]; simp
        rw [List.getElem?_append_right (by omega)] at h5
        exact List.mem_of_getElem? h5
    have h6 := congrArg (List.take pre.length) h4
    rw [List.take_left' rfl] at h6
    refine ⟨r.take (pre.length - (a ++ l).length - 1), ?_, hl.2⟩
    exact h6.trans (take_line _ _ _ hlt)
  obtain ⟨r', hpl⟩ := hpl
  refine ⟨hu.1 a l r' hpl, ?_⟩
  intro hcr
  apply hu.2
  rw [hpl.1]
  obtain ⟨t, ht⟩ := hcr
  exact ⟨t, r', by rw [ht]; simp⟩

/-- If the decisive line of `S` ends within `hs` (a prefix of `S`), a scan of `hs` decides. -/
theorem lineAt_prefix {S hs t a l r : Bytes} (h : LineAt S a l r) (hS : S = hs ++ t)
    (hlen : (a ++ l).length + 1 ≤ hs.length) : ∃ r', LineAt hs a l r' := by
  have h6 := congrArg (List.take hs.length) hS
  rw [List.take_left' rfl, h.1] at h6
  refine ⟨r.take (hs.length - (a ++ l).length - 1), ?_, h.2⟩
  exact h6.symm.trans (take_line _ _ _ (by omega))

/-- The decisive line is unique. -/
theorem lineAt_undecided_le {target S a l r pre l' r' : Bytes} (h : LineAt S a l r) (h' : LineAt S pre l' r')
    (hu : Undecided target pre) (hd : target <+: l ∨ crlf2 <:+ a ++ l ++ [10]) : pre.length ≤ a.length := by
  by_cases hlt : a.length < pre.length
  · exfalso
    -- then the line (a, l) lies inside pre
    have hle : (a ++ l).length + 1 ≤ pre.length := by
      by_cases hh : (a ++ l).length + 1 ≤ pre.length
      · exact hh
      · exfalso
        apply h.2.1
        have hne : pre ≠ [] := by intro hh; simp [hh] at hlt
        have hp := h'.2.2.resolve_left hne
        have h1 : S[pre.length - 1]? = some 10 := by
          rw [h'.1, List.append_assoc, List.getElem?_append_left (by omega), ← List.getLast?_eq_getElem?]; exact hp
        rw [h.1, List.append_assoc, List.getElem?_append_right (by omega)] at h1
        simp only [List.length_append] at hh
        rw [List.getElem?_append_left (by omega)] at h1
        exact List.mem_of_getElem? h1
    obtain ⟨r2, h2⟩ := lineAt_prefix (hs := pre) (t := l' ++ 10 :: r') h (by rw [h'.1]; simp) hle
    rcases hd with hd | hd
    · exact hu.1 _ _ _ h2 hd
    · apply hu.2
      rw [h2.1]
      obtain ⟨t, ht⟩ := hd
      exact ⟨t, r2, by rw [ht]; simp⟩
  · omega

theorem lineAt_same_start {S a l r a' l' r' : Bytes} (h : LineAt S a l r) (h' : LineAt S a' l' r')
    (hl : a.length = a'.length) : a = a' ∧ l = l' := by
  have h1 : a ++ (l ++ 10 :: r) = a' ++ (l' ++ 10 :: r') := by
    have := h.1.symm.trans h'.1
    simpa using this
  have h2 := List.append_inj h1 hl
  refine ⟨h2.1, ?_⟩
  have h3 := h2.2
  have key : ∀ (x y u v : Bytes), (10 : UInt8) ∉ x → (10 : UInt8) ∉ y → x ++ 10 :: u = y ++ 10 :: v → x.length ≤ y.length := by
    intro x y u v hx hy hh
    by_cases hlt : y.length < x.length
    · exfalso; apply hx
      have h5 : (y ++ 10 :: v)[y.length]? = some 10 := by
        rw [List.getElem?_append_right (Nat.le_refl _)]; simp
      rw [← hh, List.getElem?_append_left hlt] at h5
      exact List.mem_of_getElem? h5
    · omega
  have a1 := key _ _ _ _ h.2.1 h'.2.1 h3
  have a2 := key _ _ _ _ h'.2.1 h.2.1 h3.symm
  exact (List.append_inj h3 (by omega)).1

theorem firstHeader_unique {target S x y : Bytes} {n m : Nat} (h : FirstHeader target S x n)
    (h' : FirstHeader target S y m) : x = y ∧ n = m := by
  obtain ⟨p, r, h1, h2, h3⟩ := h
  obtain ⟨p', r', h1', h2', h3'⟩ := h'
  have a1 := lineAt_undecided_le h1 h1' h2' (Or.inl ⟨x, rfl⟩)
  have a2 := lineAt_undecided_le h1' h1 h2 (Or.inl ⟨y, rfl⟩)
  obtain ⟨rfl, hl⟩ := lineAt_same_start h1 h1' (by omega)
  have : x = y := List.append_cancel_left hl
  subst this
  exact ⟨rfl, by rw [h3, h3']⟩

theorem firstHeader_not_end {target S x : Bytes} {n m : Nat} (h : FirstHeader target S x n)
    (h' : HeadersEndFirst target S m) : False := by
  obtain ⟨p, r, h1, h2, _⟩ := h
  obtain ⟨p', l, r', h1', h2', h3', h4', _⟩ := h'
  have a1 := lineAt_undecided_le h1 h1' h2' (Or.inl ⟨x, rfl⟩)
  have a2 := lineAt_undecided_le h1' h1 h2 (Or.inr h4')
  obtain ⟨rfl, rfl⟩ := lineAt_same_start h1 h1' (by omega)
  exact h3' ⟨x, rfl⟩

end Verif.Route
