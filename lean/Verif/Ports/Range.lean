import Verif.Common
import Verif.AMap
set_option linter.unusedSimpArgs false
set_option linter.unusedVariables false
/-! # C29 — port ranges and pool separation

Models `libcs/util/portrange.go` (`NewPortRangeFromString`, `NewPortRangeFromNumber`) with the part of
`strconv.ParseUint(s, 10, 16)` it uses, and `libcs/server/server.go` 901-970 (`parseTCPs`). -/

namespace Verif.Ports.Range
open Verif

abbrev Str := List UInt8

/-- `strconv.ParseUint(s, 10, 16)`, the loop: a non-digit or a value above 65535 is an error.  (The Go code
also tests against `MaxUint64/10+1`, which a value of at most 65535 never reaches.) -/
def parseLoop : Nat → Str → Option Nat
  | n, [] => some n
  | n, ch :: r =>
    if 48 ≤ ch.toNat ∧ ch.toNat ≤ 57 then
      let n := n * 10 + (ch.toNat - 48)
      if n > 65535 then none else parseLoop n r
    else none

/-- `strconv.ParseUint(s, 10, 16)`: the empty string is a syntax error. -/
def parseUint16 (s : Str) : Option Nat := if s = [] then none else parseLoop 0 s

/-- `strings.IndexByte(s, '-')` and the two slices `s[:i]`, `s[i+1:]`. -/
def cutDash : Str → Option (Str × Str)
  | [] => none
  | ch :: r => if ch = 45 then some ([], r) else (cutDash r).map fun x => (ch :: x.1, x.2)

/-- libcs/util/portrange.go:66-77 `NewPortRangeFromNumber`. -/
def newRange (min max : Nat) : Option (Nat × Nat) :=
  if min > max then none else some (if min = 0 then 1 else min, max)

/-- libcs/util/portrange.go:35-63 `NewPortRangeFromString`. -/
def parseRange (s : Str) : Option (Nat × Nat) :=
  match cutDash s with
  | none =>
    match parseUint16 s with
    | none => none
    | some port => if port = 0 then newRange 1 65535 else newRange port port
  | some (a, b) =>
    match parseUint16 a with
    | none => none
    | some min =>
      match parseUint16 b with
      | none => none
      | some max => newRange min max

/-- libcs/server/server.go:909-915 (and 923-929, 950-960): `for i := pr.Min; i <= pr.Max; i++ { …; if i ==
math.MaxUint16 { break } }`, the ports visited. -/
def ports (i max : Nat) : List Nat :=
  if i ≤ max then i :: (if i = 65535 then [] else ports (i + 1) max) else []
termination_by max + 1 - i

/-- libcs/server/server.go:904-930: the global pool. -/
def globalPorts : List Str → Option (List Nat)
  | [] => some []
  | r :: rs =>
    match parseRange r with
    | none => none
    | some (a, b) => (globalPorts rs).map fun ps => ports a b ++ ps

/-- libcs/server/server.go:950-960: the ports of one range are claimed one by one; a port that is already in
`all` (global, another user's, or earlier in the same user's ranges) is an error. -/
def claim : List Nat → List Nat → List Nat → Option (List Nat × List Nat)
  | all, own, [] => some (all, own)
  | all, own, p :: ps => if p ∈ all then none else claim (p :: all) (p :: own) ps

/-- libcs/server/server.go:944-962: the ranges of one user. -/
def userPorts : List Nat → List Nat → List Str → Option (List Nat × List Nat)
  | all, own, [] => some (all, own)
  | all, own, r :: rs =>
    match parseRange r with
    | none => none
    | some (a, b) =>
      match claim all own (ports a b) with
      | none => none
      | some (all, own) => userPorts all own rs

/-- libcs/server/server.go:934-968: every user, in any order; `none` as the pool means the global pool. -/
def usersPorts : List Nat → List (Str × List Str) → Option (List (Str × Option (List Nat)))
  | _, [] => some []
  | all, (id, tcps) :: us =>
    if tcps = [] then (usersPorts all us).map fun r => (id, none) :: r
    else
      match userPorts all [] tcps with
      | none => none
      | some (all, own) => (usersPorts all us).map fun r => (id, some own) :: r

/-- libcs/server/server.go:901-970 `parseTCPs`: the global pool and every user's pool. -/
def parseTCPs (tcps ranges : List Str) (users : List (Str × List Str)) :
    Option (List Nat × List (Str × Option (List Nat))) :=
  match globalPorts (tcps ++ ranges) with
  | none => none
  | some g => (usersPorts g users).map fun r => (g, r)

/-! ## Specification -/

/-- `s` is a decimal number spelling `n`. -/
inductive Dec : Str → Nat → Prop
  | one (d : Nat) : d < 10 → Dec [UInt8.ofNat (48 + d)] d
  | snoc (s : Str) (n d : Nat) : Dec s n → d < 10 → Dec (s ++ [UInt8.ofNat (48 + d)]) (10 * n + d)

/-- The set of ports a range string spells. -/
def Denotes (s : Str) (p : Nat) : Prop :=
  (Dec s 0 ∧ 1 ≤ p ∧ p ≤ 65535) ∨
  (∃ n, Dec s n ∧ 1 ≤ n ∧ n ≤ 65535 ∧ p = n) ∨
  (∃ x y a b, s = x ++ 45 :: y ∧ Dec x a ∧ Dec y b ∧ b ≤ 65535 ∧ 1 ≤ p ∧ a ≤ p ∧ p ≤ b)

/-- A well-formed range string. -/
def WellFormed (s : Str) : Prop :=
  (∃ n, Dec s n ∧ n ≤ 65535) ∨
  (∃ x y a b, s = x ++ 45 :: y ∧ Dec x a ∧ Dec y b ∧ a ≤ b ∧ b ≤ 65535)

/-! ## Lemmas -/

/-- Value of a digit string read after `n`. -/
def val (n : Nat) (s : Str) : Nat := s.foldl (fun n ch => n * 10 + (ch.toNat - 48)) n

theorem val_nil (n : Nat) : val n [] = n := by simp [val]
theorem val_cons (n : Nat) (ch : UInt8) (r : Str) : val n (ch :: r) = val (n * 10 + (ch.toNat - 48)) r := by
  simp only [val, List.foldl_cons]

def isDigit (c : UInt8) : Prop := 48 ≤ c.toNat ∧ c.toNat ≤ 57

theorem val_append (n : Nat) (s t : Str) : val n (s ++ t) = val (val n s) t := by
  induction s generalizing n with
  | nil => simp [val_nil]
  | cons a r ih => simp [val_nil, val_cons, ih]

theorem val_ge (n : Nat) (s : Str) : n ≤ val n s := by
  induction s generalizing n with
  | nil => simp [val_nil, val_cons]
  | cons a r ih => simp only [val_nil, val_cons]; have := ih (n * 10 + (a.toNat - 48)); omega

theorem parseLoop_iff (n m : Nat) (s : Str) (hn : n ≤ 65535) :
    parseLoop n s = some m ↔ ((∀ c ∈ s, isDigit c) ∧ val n s = m ∧ m ≤ 65535) := by
  induction s generalizing n with
  | nil => simp [parseLoop, val_nil, val_cons]; intro h; omega
  | cons a r ih =>
    simp only [parseLoop]
    by_cases hd : 48 ≤ a.toNat ∧ a.toNat ≤ 57
    · simp only [hd, and_self, if_true]
      by_cases hv : n * 10 + (a.toNat - 48) > 65535
      · simp only [hv, if_true]
        simp only [reduceCtorEq, false_iff]
        rintro ⟨_, h1, h2⟩
        simp only [val_nil, val_cons] at h1
        have := val_ge (n * 10 + (a.toNat - 48)) r
        omega
      · simp only [hv, if_false]
        rw [ih _ (by omega)]
        simp only [val_nil, val_cons, List.mem_cons, forall_eq_or_imp, isDigit]
        simp [hd]
    · simp only [hd, if_false]
      simp only [reduceCtorEq, false_iff]
      rintro ⟨h1, _⟩
      exact hd (h1 a (by simp))

theorem ofNat_toNat_digit {d : Nat} (h : d < 10) : (UInt8.ofNat (48 + d)).toNat = 48 + d := by
  rw [UInt8.toNat_ofNat']; omega

theorem dec_iff (s : Str) (n : Nat) : Dec s n ↔ (s ≠ [] ∧ (∀ c ∈ s, isDigit c) ∧ val 0 s = n) := by
  constructor
  · intro h
    induction h with
    | one d hd =>
      refine ⟨by simp, ?_, ?_⟩
      · intro c hc; rw [List.mem_singleton] at hc; subst hc; simp only [isDigit, ofNat_toNat_digit hd]; omega
      · simp only [val_nil, val_cons, ofNat_toNat_digit hd]; omega
    | snoc s n d _ hd ih =>
      obtain ⟨h1, h2, h3⟩ := ih
      refine ⟨by simp, ?_, ?_⟩
      · intro c hc
        rw [List.mem_append, List.mem_singleton] at hc
        rcases hc with hc | hc
        · exact h2 c hc
        · subst hc; simp only [isDigit, ofNat_toNat_digit hd]; omega
      · rw [val_append, h3]; simp only [val_nil, val_cons, ofNat_toNat_digit hd]; omega
  · rintro ⟨h1, h2, h3⟩
    -- induction from the right
    have key : ∀ (k : Nat) (s : Str) (n : Nat), s.length = k → s ≠ [] → (∀ c ∈ s, isDigit c) → val 0 s = n → Dec s n := by
      intro k
      induction k with
      | zero => intro s n hl hs; exact absurd (List.length_eq_zero_iff.1 hl) hs
      | succ k ih =>
        intro s n hl hs hd hv
        have hsplit := List.dropLast_concat_getLast hs
        have hlast : isDigit (s.getLast hs) := hd _ (List.getLast_mem hs)
        have hch : UInt8.ofNat (48 + ((s.getLast hs).toNat - 48)) = s.getLast hs := by
          apply UInt8.toNat_inj.1
          rw [UInt8.toNat_ofNat']
          have h1 := hlast.1
          have h2 := hlast.2
          omega
        have hlt : (s.getLast hs).toNat - 48 < 10 := by
          have := hlast.2; omega
        by_cases hk : s.dropLast = []
        · rw [hk] at hsplit
          rw [← hsplit, ← hch]
          rw [← hsplit] at hv
          simp only [List.nil_append, val_nil, val_cons] at hv ⊢
          rw [← hv]
          simpa using Dec.one _ hlt
        · have hd' : Dec s.dropLast (val 0 s.dropLast) := by
            refine ih _ _ (by simp [hl]) hk ?_ rfl
            intro c hc; exact hd c (List.dropLast_subset s hc)
          have := Dec.snoc _ _ _ hd' hlt
          rw [hch, hsplit] at this
          rw [← hsplit, val_append] at hv
          simp only [val_nil, val_cons] at hv
          have e : 10 * val 0 s.dropLast + ((s.getLast hs).toNat - 48) = n := by omega
          rwa [e] at this
    exact key _ s n rfl h1 h2 h3

theorem parseUint16_iff (s : Str) (n : Nat) : parseUint16 s = some n ↔ (Dec s n ∧ n ≤ 65535) := by
  unfold parseUint16
  by_cases h : s = []
  · simp only [h, if_true]
    constructor
    · intro h; simp at h
    · rintro ⟨h, _⟩; exact absurd rfl ((dec_iff _ _).1 h).1
  · simp only [h, if_false]
    rw [parseLoop_iff _ _ _ (by omega), dec_iff]
    simp only [ne_eq, h, not_false_iff, true_and]
    constructor
    · rintro ⟨a, b, c⟩; exact ⟨⟨a, b⟩, c⟩
    · rintro ⟨⟨a, b⟩, c⟩; exact ⟨a, b, c⟩

theorem dec_no_dash {s n} (h : Dec s n) : (45 : UInt8) ∉ s := by
  intro hm
  have := ((dec_iff _ _).1 h).2.1 _ hm
  simp [isDigit] at this

theorem cutDash_none (s : Str) : cutDash s = none ↔ (45 : UInt8) ∉ s := by
  induction s with
  | nil => simp [cutDash]
  | cons a r ih =>
    simp only [cutDash]
    by_cases h : a = 45
    · simp [h]
    · simp [h, ih, show ¬ (45 : UInt8) = a from fun x => h x.symm]

theorem cutDash_some (s x y : Str) : cutDash s = some (x, y) ↔ ((45 : UInt8) ∉ x ∧ s = x ++ 45 :: y) := by
  induction s generalizing x with
  | nil => simp [cutDash]
  | cons a r ih =>
    simp only [cutDash]
    by_cases h : a = 45
    · subst h
      simp only [if_true, Option.some.injEq, Prod.mk.injEq]
      constructor
      · rintro ⟨rfl, rfl⟩; simp
      · rintro ⟨h1, h2⟩
        cases x with
        | nil => simp at h2; exact ⟨rfl, h2⟩
        | cons b x => simp at h2; simp [← h2.1] at h1
    · simp only [h, if_false, Option.map_eq_some_iff]
      constructor
      · rintro ⟨⟨p, q⟩, h1, h2⟩
        simp only [Prod.mk.injEq] at h2
        obtain ⟨rfl, rfl⟩ := h2
        obtain ⟨h3, h4⟩ := (ih p).1 h1
        refine ⟨?_, by simp [h4]⟩
        simp [h3, show ¬ (45 : UInt8) = a from fun x => h x.symm]
      · rintro ⟨h1, h2⟩
        cases x with
        | nil => simp at h2; exact absurd h2.1 h
        | cons b x =>
          simp at h2 h1
          obtain ⟨rfl, rfl⟩ := h2
          exact ⟨(x, y), (ih x).2 ⟨h1.2, rfl⟩, rfl⟩

theorem mem_ports (i max p : Nat) (h : max ≤ 65535) : p ∈ ports i max ↔ (i ≤ p ∧ p ≤ max) := by
  induction hk : max + 1 - i generalizing i with
  | zero =>
    unfold ports
    have : ¬ i ≤ max := by omega
    simp [this]; omega
  | succ k ih =>
    unfold ports
    have hle : i ≤ max := by omega
    simp only [hle, if_true, List.mem_cons]
    by_cases h2 : i = 65535
    · simp [h2]; omega
    · simp only [h2, if_false]
      rw [ih (i + 1) (by omega)]
      omega

theorem dec_fun {s n m} (h : Dec s n) (h' : Dec s m) : n = m := by
  rw [← ((dec_iff _ _).1 h).2.2, ← ((dec_iff _ _).1 h').2.2]

/-! ## Theorems about a range string -/

/-- A range string is accepted iff it is well-formed. -/
theorem range_accepted_iff (s : Str) : (∃ r, parseRange s = some r) ↔ WellFormed s := by
  unfold parseRange
  cases hc : cutDash s with
  | none =>
    have hnd := (cutDash_none s).1 hc
    simp only
    cases hp : parseUint16 s with
    | none =>
      simp only [reduceCtorEq, exists_false, false_iff]
      rintro (⟨n, h⟩ | ⟨x, y, a, b, rfl, _⟩)
      · rw [(parseUint16_iff s n).2 h] at hp; simp at hp
      · simp at hnd
    | some n =>
      have := (parseUint16_iff s n).1 hp
      simp only
      constructor
      · intro _; exact Or.inl ⟨n, this⟩
      · intro _
        by_cases h0 : n = 0 <;> simp [h0, newRange]
  | some x =>
    obtain ⟨x, y⟩ := x
    obtain ⟨hx, hs⟩ := (cutDash_some s x y).1 hc
    simp only
    have red : WellFormed s ↔ ∃ a b, Dec x a ∧ Dec y b ∧ a ≤ b ∧ b ≤ 65535 := by
      constructor
      · rintro (⟨n, h, _⟩ | ⟨x', y', a, b, h1, h2, h3, h4⟩)
        · exact absurd (by rw [hs]; simp) (dec_no_dash h)
        · have : cutDash s = some (x', y') := (cutDash_some _ _ _).2 ⟨dec_no_dash h2, h1⟩
          rw [hc] at this
          simp at this
          obtain ⟨rfl, rfl⟩ := this
          exact ⟨a, b, h2, h3, h4⟩
      · rintro ⟨a, b, h⟩
        exact Or.inr ⟨x, y, a, b, hs, h⟩
    rw [red]
    cases ha : parseUint16 x with
    | none =>
      simp only [reduceCtorEq, exists_false, false_iff]
      rintro ⟨a, b, h1, h2, h3, h4⟩
      rw [(parseUint16_iff x a).2 ⟨h1, by omega⟩] at ha; simp at ha
    | some a =>
      have ha' := (parseUint16_iff _ _).1 ha
      simp only
      cases hb : parseUint16 y with
      | none =>
        simp only [reduceCtorEq, exists_false, false_iff]
        rintro ⟨a', b, h1, h2, h3, h4⟩
        rw [(parseUint16_iff y b).2 ⟨h2, by omega⟩] at hb; simp at hb
      | some b =>
        have hb' := (parseUint16_iff _ _).1 hb
        simp only [newRange]
        constructor
        · rintro ⟨r, h⟩
          split at h
          · simp at h
          · exact ⟨a, b, ha'.1, hb'.1, by omega, hb'.2⟩
        · rintro ⟨a', b', h1, h2, h3, h4⟩
          rw [dec_fun ha'.1 h1, dec_fun hb'.1 h2]
          rw [if_neg (by omega)]
          exact ⟨_, rfl⟩

/-- **C29, first claim**: the ports an accepted range stands for are exactly the ports its string
spells (within 1..65535). -/
theorem range_denotes {s : Str} {a b : Nat} (h : parseRange s = some (a, b)) (p : Nat) :
    p ∈ ports a b ↔ Denotes s p := by
  unfold parseRange at h
  cases hc : cutDash s with
  | none =>
    simp only [hc] at h
    have hnd := (cutDash_none s).1 hc
    cases hp : parseUint16 s with
    | none => simp [hp] at h
    | some n =>
      simp only [hp] at h
      have hn := (parseUint16_iff s n).1 hp
      have red : Denotes s p ↔ ((n = 0 ∧ 1 ≤ p ∧ p ≤ 65535) ∨ (1 ≤ n ∧ p = n)) := by
        constructor
        · rintro (⟨h1, h2⟩ | ⟨m, h1, h2, h3, h4⟩ | ⟨x, y, a, b, rfl, _⟩)
          · exact Or.inl ⟨dec_fun hn.1 h1, h2⟩
          · have := dec_fun hn.1 h1; subst this; exact Or.inr ⟨h2, h4⟩
          · simp at hnd
        · rintro (⟨rfl, h2⟩ | ⟨h1, h2⟩)
          · exact Or.inl ⟨hn.1, h2⟩
          · exact Or.inr (Or.inl ⟨n, hn.1, h1, hn.2, h2⟩)
      rw [red]
      by_cases h0 : n = 0
      · simp [h0, newRange] at h
        obtain ⟨rfl, rfl⟩ := h
        rw [mem_ports _ _ _ (by omega)]
        omega
      · simp [h0, newRange] at h
        obtain ⟨rfl, rfl⟩ := h
        rw [mem_ports _ _ _ (by omega)]
        omega
  | some x =>
    obtain ⟨x, y⟩ := x
    simp only [hc] at h
    obtain ⟨hx, hs⟩ := (cutDash_some s x y).1 hc
    cases ha : parseUint16 x with
    | none => simp [ha] at h
    | some a0 =>
      cases hb : parseUint16 y with
      | none => simp [ha, hb] at h
      | some b0 =>
        simp only [ha, hb, newRange] at h
        have ha' := (parseUint16_iff _ _).1 ha
        have hb' := (parseUint16_iff _ _).1 hb
        have red : Denotes s p ↔ (1 ≤ p ∧ a0 ≤ p ∧ p ≤ b0) := by
          constructor
          · rintro (⟨h1, _⟩ | ⟨m, h1, _⟩ | ⟨x', y', a1, b1, h1, h2, h3, h4, h5⟩)
            · exact absurd (by rw [hs]; simp) (dec_no_dash h1)
            · exact absurd (by rw [hs]; simp) (dec_no_dash h1)
            · have : cutDash s = some (x', y') := (cutDash_some _ _ _).2 ⟨dec_no_dash h2, h1⟩
              rw [hc] at this
              simp at this
              obtain ⟨rfl, rfl⟩ := this
              rw [dec_fun ha'.1 h2, dec_fun hb'.1 h3]
              exact h5
          · intro h5
            exact Or.inr (Or.inr ⟨x, y, a0, b0, hs, ha'.1, hb'.1, hb'.2, h5⟩)
        rw [red]
        split at h
        · simp at h
        · simp only [Option.some.injEq, Prod.mk.injEq] at h
          obtain ⟨h1, rfl⟩ := h
          rw [mem_ports _ _ _ hb'.2, ← h1]
          split <;> omega

/-- **C29, second claim (part)**: every accepted range is inside 1..65535, and it is nonempty unless its
upper end is 0.  Missing: nonemptiness of `"0-0"`, which is accepted and denotes no port
(`empty_range_accepted`). -/
theorem range_bounds_partial {s : Str} {a b : Nat} (h : parseRange s = some (a, b)) :
    1 ≤ a ∧ b ≤ 65535 ∧ (1 ≤ b → a ≤ b ∧ ∃ p, Denotes s p) := by
  have hb : 1 ≤ a ∧ b ≤ 65535 ∧ (1 ≤ b → a ≤ b) := by
    unfold parseRange at h
    have num : ∀ x y, y ≤ 65535 → newRange x y = some (a, b) → 1 ≤ a ∧ b ≤ 65535 ∧ (1 ≤ b → a ≤ b) := by
      intro x y hy h
      unfold newRange at h
      split at h
      · simp at h
      · simp only [Option.some.injEq, Prod.mk.injEq] at h
        obtain ⟨h1, rfl⟩ := h
        split at h1 <;> omega
    split at h
    · split at h
      · simp at h
      · rename_i n hp
        have := ((parseUint16_iff _ _).1 hp).2
        split at h
        · exact num _ _ (by omega) h
        · exact num _ _ this h
    · split at h
      · simp at h
      · split at h
        · simp at h
        · rename_i m hp
          exact num _ _ ((parseUint16_iff _ _).1 hp).2 h
  refine ⟨hb.1, hb.2.1, fun h1 => ⟨hb.2.2 h1, a, ?_⟩⟩
  rw [← range_denotes h, mem_ports _ _ _ hb.2.1]
  have := hb.2.2 h1
  omega

/-- `"0-0"` is accepted and stands for no port at all. -/
theorem empty_range_accepted : parseRange [48, 45, 48] = some (1, 0) ∧ ∀ p, ¬ Denotes [48, 45, 48] p := by
  have h : parseRange [48, 45, 48] = some (1, 0) := by decide
  refine ⟨h, ?_⟩
  intro p hp
  rw [← range_denotes h, mem_ports _ _ _ (by omega)] at hp
  omega

/-! ## Theorems about the pools -/

theorem globalPorts_spec {rs : List Str} {g : List Nat} (h : globalPorts rs = some g) :
    (∀ p, p ∈ g ↔ ∃ r ∈ rs, Denotes r p) ∧ ∀ r ∈ rs, WellFormed r := by
  induction rs generalizing g with
  | nil => simp [globalPorts] at h; subst h; simp
  | cons r rs ih =>
    simp only [globalPorts] at h
    split at h
    · simp at h
    · rename_i a b hr
      simp only [Option.map_eq_some_iff] at h
      obtain ⟨g', hg', rfl⟩ := h
      obtain ⟨i1, i2⟩ := ih hg'
      refine ⟨?_, ?_⟩
      · intro p
        simp only [List.mem_append, i1, range_denotes hr, List.mem_cons, exists_eq_or_imp]
      · intro r' h'
        rcases List.mem_cons.1 h' with rfl | h'
        · exact (range_accepted_iff _).1 ⟨_, hr⟩
        · exact i2 r' h'

theorem claim_spec {all own ps all' own' : List Nat} (h : claim all own ps = some (all', own')) :
    (∀ p, p ∈ all' ↔ p ∈ all ∨ p ∈ ps) ∧ (∀ p, p ∈ own' ↔ p ∈ own ∨ p ∈ ps) ∧ (∀ p ∈ ps, p ∉ all) := by
  induction ps generalizing all own with
  | nil => simp [claim] at h; obtain ⟨rfl, rfl⟩ := h; simp
  | cons p ps ih =>
    simp only [claim] at h
    split at h
    · simp at h
    · rename_i hp
      obtain ⟨i1, i2, i3⟩ := ih h
      refine ⟨?_, ?_, ?_⟩
      · intro q; rw [i1]; simp only [List.mem_cons]
        constructor
        · rintro ((h | h) | h) <;> simp [h]
        · rintro (h | h | h) <;> simp [h]
      · intro q; rw [i2]; simp only [List.mem_cons]
        constructor
        · rintro ((h | h) | h) <;> simp [h]
        · rintro (h | h | h) <;> simp [h]
      · intro q hq
        rcases List.mem_cons.1 hq with rfl | hq
        · exact hp
        · intro hc; exact i3 q hq (by simp [hc])

theorem userPorts_spec {all own all' own' : List Nat} {rs : List Str} (h : userPorts all own rs = some (all', own')) :
    (∀ p, p ∈ all' ↔ p ∈ all ∨ ∃ r ∈ rs, Denotes r p) ∧ (∀ p, p ∈ own' ↔ p ∈ own ∨ ∃ r ∈ rs, Denotes r p) ∧
    (∀ p, (∃ r ∈ rs, Denotes r p) → p ∉ all) := by
  induction rs generalizing all own with
  | nil => simp [userPorts] at h; obtain ⟨rfl, rfl⟩ := h; simp
  | cons r rs ih =>
    simp only [userPorts] at h
    split at h
    · simp at h
    · rename_i a b hr
      split at h
      · simp at h
      · rename_i all1 own1 hc
        obtain ⟨c1, c2, c3⟩ := claim_spec hc
        obtain ⟨i1, i2, i3⟩ := ih h
        simp only [range_denotes hr] at c1 c2 c3
        refine ⟨?_, ?_, ?_⟩
        · intro p; rw [i1, c1]; simp only [List.mem_cons, exists_eq_or_imp, or_assoc]
        · intro p; rw [i2, c2]; simp only [List.mem_cons, exists_eq_or_imp, or_assoc]
        · rintro p ⟨r', h', hd⟩
          rcases List.mem_cons.1 h' with rfl | h'
          · exact c3 p hd
          · intro hp
            exact i3 p ⟨r', h', hd⟩ ((c1 p).2 (Or.inl hp))

theorem usersPorts_spec {all : List Nat} {us : List (Str × List Str)} {res : List (Str × Option (List Nat))}
    (h : usersPorts all us = some res) :
    res.map Prod.fst = us.map Prod.fst ∧
    (∀ (i : Nat) u, us[i]? = some u → ∃ pool, res[i]? = some (u.1, pool) ∧ (pool = none ↔ u.2 = []) ∧
      ∀ own, pool = some own → (∀ p, p ∈ own ↔ ∃ r ∈ u.2, Denotes r p) ∧ ∀ p ∈ own, p ∉ all) ∧
    (∀ (i j : Nat) u v, us[i]? = some u → us[j]? = some v → i < j → ∀ p, (∃ r ∈ u.2, Denotes r p) → ¬ ∃ r ∈ v.2, Denotes r p) := by
  induction us generalizing all res with
  | nil => simp [usersPorts] at h; subst h; simp
  | cons u us ih =>
    obtain ⟨id, tcps⟩ := u
    simp only [usersPorts] at h
    have getcons : ∀ {α : Type} (a : α) (l : List α) (i : Nat) (x : α), (a :: l)[i]? = some x →
        (i = 0 ∧ x = a) ∨ ∃ i', i = i' + 1 ∧ l[i']? = some x := by
      intro α a l i x h
      cases i with
      | zero => left; simp at h; exact ⟨rfl, h.symm⟩
      | succ i => right; exact ⟨i, rfl, by simpa using h⟩
    split at h
    · rename_i he
      subst he
      simp only [Option.map_eq_some_iff] at h
      obtain ⟨res', hr, rfl⟩ := h
      obtain ⟨i1, i2, i3⟩ := ih hr
      refine ⟨by simp [i1], ?_, ?_⟩
      · intro i u hu
        rcases getcons _ _ _ _ hu with ⟨rfl, rfl⟩ | ⟨i', rfl, hu'⟩
        · exact ⟨none, by simp, by simp, by simp⟩
        · obtain ⟨pool, a, b, c⟩ := i2 i' u hu'
          exact ⟨pool, by simpa using a, b, c⟩
      · intro i j u v hu hv hij p hp
        rcases getcons _ _ _ _ hu with ⟨rfl, rfl⟩ | ⟨i', rfl, hu'⟩
        · simp at hp
        · rcases getcons _ _ _ _ hv with ⟨rfl, rfl⟩ | ⟨j', rfl, hv'⟩
          · omega
          · exact i3 i' j' u v hu' hv' (by omega) p hp
    · rename_i hne
      split at h
      · simp at h
      · rename_i all' own hup
        simp only [Option.map_eq_some_iff] at h
        obtain ⟨res', hr, rfl⟩ := h
        obtain ⟨i1, i2, i3⟩ := ih hr
        obtain ⟨u1, u2, u3⟩ := userPorts_spec hup
        have u2' : ∀ p, p ∈ own ↔ ∃ r ∈ tcps, Denotes r p := by intro p; rw [u2]; simp
        refine ⟨by simp [i1], ?_, ?_⟩
        · intro i u hu
          rcases getcons _ _ _ _ hu with ⟨rfl, rfl⟩ | ⟨i', rfl, hu'⟩
          · refine ⟨some own, by simp, by simp [hne], ?_⟩
            intro own' ho
            injection ho with ho; subst ho
            exact ⟨u2', fun p hp => u3 p ((u2' p).1 hp)⟩
          · obtain ⟨pool, a, b, c⟩ := i2 i' u hu'
            refine ⟨pool, by simpa using a, b, ?_⟩
            intro own' ho
            obtain ⟨d1, d2⟩ := c own' ho
            exact ⟨d1, fun p hp hall => d2 p hp ((u1 p).2 (Or.inl hall))⟩
        · intro i j u v hu hv hij p hp hq
          rcases getcons _ _ _ _ hu with ⟨rfl, rfl⟩ | ⟨i', rfl, hu'⟩
          · rcases getcons _ _ _ _ hv with ⟨rfl, rfl⟩ | ⟨j', rfl, hv'⟩
            · omega
            · obtain ⟨pool, a, b, c⟩ := i2 j' v hv'
              cases pool with
              | none => have := b.1 rfl; rw [this] at hq; simp at hq
              | some ow =>
                obtain ⟨d1, d2⟩ := c ow rfl
                exact d2 p ((d1 p).2 hq) ((u1 p).2 (Or.inr hp))
          · rcases getcons _ _ _ _ hv with ⟨rfl, rfl⟩ | ⟨j', rfl, hv'⟩
            · omega
            · exact i3 i' j' u v hu' hv' (by omega) p hp hq

/-- **C29, third claim**: if the configuration is accepted, the global pool is what the global ranges
spell, every user with ranges of its own gets exactly the ports they spell, all other users share the
global pool, and the own pools are disjoint from the global pool and from each other. -/
theorem pools_are_separate {tcps ranges : List Str} {users : List (Str × List Str)} {g : List Nat}
    {res : List (Str × Option (List Nat))} (h : parseTCPs tcps ranges users = some (g, res)) :
    (∀ p, p ∈ g ↔ ∃ r ∈ tcps ++ ranges, Denotes r p) ∧
    res.map Prod.fst = users.map Prod.fst ∧
    (∀ (i : Nat) u, users[i]? = some u → ∃ pool, res[i]? = some (u.1, pool) ∧ (pool = none ↔ u.2 = []) ∧
      ∀ own, pool = some own → (∀ p, p ∈ own ↔ ∃ r ∈ u.2, Denotes r p) ∧ ∀ p ∈ own, p ∉ g) ∧
    (∀ (i j : Nat) a b P Q, i ≠ j → res[i]? = some (a, some P) → res[j]? = some (b, some Q) → ∀ p ∈ P, p ∉ Q) := by
  unfold parseTCPs at h
  split at h
  · simp at h
  · rename_i g' hg
    simp only [Option.map_eq_some_iff] at h
    obtain ⟨res', hr, he⟩ := h
    simp only [Prod.mk.injEq] at he
    obtain ⟨rfl, rfl⟩ := he
    obtain ⟨s1, s2, s3⟩ := usersPorts_spec hr
    refine ⟨(globalPorts_spec hg).1, s1, s2, ?_⟩
    intro i j a b P Q hij hi hj p hp hq
    have len : res'.length = users.length := by
      have := congrArg List.length s1; simpa using this
    have get : ∀ (i : Nat) a P, res'[i]? = some (a, some P) → ∃ u, users[i]? = some u ∧ (∀ p, p ∈ P ↔ ∃ r ∈ u.2, Denotes r p) := by
      intro i a P hi
      have hlt : i < users.length := by
        have := (List.getElem?_eq_some_iff.1 hi).1; omega
      obtain ⟨pool, h1, h2, h3⟩ := s2 i _ (List.getElem?_eq_getElem hlt)
      rw [hi] at h1
      simp at h1
      exact ⟨_, List.getElem?_eq_getElem hlt, (h3 P h1.2.symm).1⟩
    obtain ⟨u, hu, eu⟩ := get i a P hi
    obtain ⟨v, hv, ev⟩ := get j b Q hj
    rcases Nat.lt_or_gt_of_ne hij with hlt | hlt
    · exact s3 i j u v hu hv hlt p ((eu p).1 hp) ((ev p).1 hq)
    · exact s3 j i v u hv hu hlt p ((ev p).1 hq) ((eu p).1 hp)

/-- Non-vacuity: "80", "90-92" global; one user with "100-101", one without; a clash is refused. -/
example : parseTCPs [[56, 48]] [[57, 48, 45, 57, 50]] [([1], [[49, 48, 48, 45, 49, 48, 49]]), ([2], [])] =
    some ([80, 90, 91, 92], [([1], some [101, 100]), ([2], none)]) := by
  simp only [parseTCPs, globalPorts, usersPorts, userPorts,
    show parseRange [56, 48] = some (80, 80) from by decide,
    show parseRange [57, 48, 45, 57, 50] = some (90, 92) from by decide,
    show parseRange [49, 48, 48, 45, 49, 48, 49] = some (100, 101) from by decide, List.cons_append, List.nil_append]
  simp [ports, claim]
example : parseTCPs [[56, 48]] [] [([1], [[56, 48]])] = none := by
  simp only [parseTCPs, globalPorts, usersPorts, userPorts,
    show parseRange [56, 48] = some (80, 80) from by decide, List.cons_append, List.nil_append]
  simp [ports, claim]
example : parseRange [56, 45, 55] = none ∧ parseRange [54, 53, 53, 51, 54] = none ∧
    parseRange [48] = some (1, 65535) := by decide

end Verif.Ports.Range
