import Verif.Common
set_option linter.unusedSimpArgs false
set_option linter.unusedVariables false
/-!
# C143: durations in options, files and forms (libcs/config/duration.go)

`config.Duration` is read with Go's `time.ParseDuration` and written with `time.Duration.String`. Those two functions
belong to Go's standard library (`time/format.go`), whose source is not in /repo; they are modelled here from the published
source of Go 1.19, because every property of a duration rests on them. Texts are byte strings, `uint64` arithmetic is
reduced modulo 2^64, and the one floating-point expression of `ParseDuration`,
`uint64(float64(f) * (float64(unit) / scale))`, is a parameter `fr f unit k` (`scale` is 10^k), about which only
`Float64` below is assumed.
-/
namespace Verif.Config.Duration
open Verif

/-! ## Specification -/
namespace Spec

/-- The units of the documentation. -/
inductive U where
  | h | m | s | ms | us | ns
deriving DecidableEq, Repr

/-- A unit in nanoseconds. -/
def U.size : U → Nat
  | .h => 3600000000000
  | .m => 60000000000
  | .s => 1000000000
  | .ms => 1000000
  | .us => 1000
  | .ns => 1

/-- How a unit is written: `h`, `m`, `s`, `ms`, `us` / `µs` (two code points), `ns`. -/
def U.names : U → List Bytes
  | .h => [[104]]
  | .m => [[109]]
  | .s => [[115]]
  | .ms => [[109, 115]]
  | .us => [[117, 115], [194, 181, 115], [206, 188, 115]]
  | .ns => [[110, 115]]

def Digit (b : UInt8) : Prop := 48 ≤ b.toNat ∧ b.toNat ≤ 57

/-- The number a string of decimal digits denotes. -/
def num (ds : Bytes) : Nat := ds.foldl (fun x b => x * 10 + (b.toNat - 48)) 0

/-- One component of a duration, such as `12h`, `.5s`, `3.25ms`, `7.m`. -/
structure Tok where
  int : Bytes
  dot : Bool
  frac : Bytes
  unit : U
  name : Bytes
deriving DecidableEq, Repr

/-- Digits before or after the point, then the name of a unit. -/
structure Tok.Ok (t : Tok) : Prop where
  int : ∀ b ∈ t.int, Digit b
  frac : ∀ b ∈ t.frac, Digit b
  nodot : t.dot = false → t.frac = []
  digits : t.int ≠ [] ∨ t.frac ≠ []
  name : t.name ∈ t.unit.names

def Tok.text (t : Tok) : Bytes := t.int ++ (if t.dot then 46 :: t.frac else []) ++ t.name

/-- The component denotes a whole number of nanoseconds in every digit. -/
def Tok.Whole (t : Tok) : Prop := 10 ^ t.frac.length ∣ t.unit.size

/-- What it denotes, in nanoseconds. -/
def Tok.value (t : Tok) : Nat := num t.int * t.unit.size + num t.frac * (t.unit.size / 10 ^ t.frac.length)

def text (ts : List Tok) : Bytes := (ts.map Tok.text).flatten
def total (ts : List Tok) : Nat := (ts.map Tok.value).sum

inductive Sign where
  | none | plus | minus
deriving DecidableEq, Repr

def Sign.text : Sign → Bytes
  | .none => []
  | .plus => [43]
  | .minus => [45]

def Sign.apply : Sign → Nat → Int
  | .minus, n => -(n : Int)
  | _, n => n

end Spec
open Spec

/-! ## The model -/

/-- time/format.go `leadingInt`: digits, refused above 2^63. -/
def leadingInt : Nat → Bytes → Option (Nat × Bytes)
  | x, [] => some (x, [])
  | x, c :: s =>
    if c.toNat < 48 ∨ c.toNat > 57 then some (x, c :: s)
    else if x > 922337203685477580 then none
    else if x * 10 + c.toNat - 48 > 9223372036854775808 then none
    else leadingInt (x * 10 + c.toNat - 48) s

/-- time/format.go `leadingFraction`: digits; when they no longer fit, the rest is skipped. The scale is 10^k. -/
def leadingFraction : Bool → Nat → Nat → Bytes → Nat × Nat × Bytes
  | _, x, k, [] => (x, k, [])
  | o, x, k, c :: s =>
    if c.toNat < 48 ∨ c.toNat > 57 then (x, k, c :: s)
    else if o then leadingFraction true x k s
    else if x > 922337203685477580 then leadingFraction true x k s
    else if x * 10 + c.toNat - 48 > 9223372036854775808 then leadingFraction true x k s
    else leadingFraction false (x * 10 + c.toNat - 48) (k + 1) s

/-- time/format.go `unitMap`. -/
def unitMap : Bytes → Option Nat
  | [110, 115] => some 1
  | [117, 115] => some 1000
  | [194, 181, 115] => some 1000
  | [206, 188, 115] => some 1000
  | [109, 115] => some 1000000
  | [115] => some 1000000000
  | [109] => some 60000000000
  | [104] => some 3600000000000
  | _ => none

/-- A byte that belongs to the name of a unit: neither a point nor a digit. -/
def unitByte (c : UInt8) : Bool := !(c.toNat == 46 || (decide (48 ≤ c.toNat) && decide (c.toNat ≤ 57)))

/-- The part of `ParseDuration`'s loop that reads the digits after a point: (f, k, rest, whether there were any). -/
def fraction (s : Bytes) : Nat × Nat × Bytes × Bool :=
  match s with
  | 46 :: s' =>
    let r := leadingFraction false 0 0 s'
    (r.1, r.2.1, r.2.2, r.2.2.length != s'.length)
  | _ => (0, 0, s, false)

/-- One round of `ParseDuration`'s loop: the value of the component and the rest of the text. -/
def component (fr : Nat → Nat → Nat → Nat) (s : Bytes) : Option (Nat × Bytes) :=
  match s with
  | [] => none
  | c :: _ =>
    if unitByte c then none
    else match leadingInt 0 s with
    | none => none
    | some (v, s1) =>
      let q := fraction s1
      if (s1.length == s.length && !q.2.2.2) then none
      else if q.2.2.1.takeWhile unitByte = [] then none
      else match unitMap (q.2.2.1.takeWhile unitByte) with
      | none => none
      | some unit =>
        if v > 9223372036854775808 / unit then none
        else if q.1 > 0 then
          if (v * unit + fr q.1 unit q.2.1) % 18446744073709551616 > 9223372036854775808 then none
          else some ((v * unit + fr q.1 unit q.2.1) % 18446744073709551616, q.2.2.1.dropWhile unitByte)
        else some (v * unit, q.2.2.1.dropWhile unitByte)

/-- The loop of `ParseDuration`; the fuel is the length of the text. -/
def loop (fr : Nat → Nat → Nat → Nat) : Nat → Nat → Bytes → Option Nat
  | _, d, [] => some d
  | 0, _, _ :: _ => none
  | f + 1, d, c :: s =>
    match component fr (c :: s) with
    | none => none
    | some (v, rest) =>
      if (d + v) % 18446744073709551616 > 9223372036854775808 then none
      else loop fr f ((d + v) % 18446744073709551616) rest

/-- `[-+]?` -/
def sign : Bytes → Bool × Bytes
  | 45 :: t => (true, t)
  | 43 :: t => (false, t)
  | s => (false, s)

/-- time/format.go `ParseDuration`. -/
def parse (fr : Nat → Nat → Nat → Nat) (s : Bytes) : Option Int :=
  let q := sign s
  if q.2 = [48] then some 0
  else if q.2 = [] then none
  else match loop fr q.2.length 0 q.2 with
  | none => none
  | some d =>
    if q.1 then some (-(d : Int))
    else if d > 9223372036854775807 then none
    else some (d : Int)

/-- time/time.go `fmtFrac`: the last `prec` digits of `v` without trailing zeros, before `out`. -/
def fracLoop : Nat → Nat → Bool → Bytes → Bytes × Nat × Bool
  | 0, v, p, out => (out, v, p)
  | i + 1, v, p, out =>
    let p' := p || (v % 10 != 0)
    fracLoop i (v / 10) p' (if p' then UInt8.ofNat (48 + v % 10) :: out else out)

def fmtFrac (prec v : Nat) (out : Bytes) : Bytes × Nat :=
  let q := fracLoop prec v false out
  (if q.2.2 then 46 :: q.1 else q.1, q.2.1)

/-- time/time.go `fmtInt`; the fuel is any number above the number of digits. -/
def intLoop : Nat → Nat → Bytes → Bytes
  | 0, _, out => out
  | f + 1, v, out => if v = 0 then out else intLoop f (v / 10) (UInt8.ofNat (48 + v % 10) :: out)

def fmtInt (v : Nat) (out : Bytes) : Bytes := if v = 0 then 48 :: out else intLoop v v out

/-- time/time.go `Duration.String`, without the sign. -/
def printAbs (u : Nat) : Bytes :=
  if u = 0 then [48, 115]
  else if u < 1000 then let q := fmtFrac 0 u [110, 115]; fmtInt q.2 q.1
  else if u < 1000000 then let q := fmtFrac 3 u [194, 181, 115]; fmtInt q.2 q.1
  else if u < 1000000000 then let q := fmtFrac 6 u [109, 115]; fmtInt q.2 q.1
  else
    let q := fmtFrac 9 u [115]
    let out := fmtInt (q.2 % 60) q.1
    if q.2 / 60 > 0 then
      let out := fmtInt (q.2 / 60 % 60) (109 :: out)
      if q.2 / 60 / 60 > 0 then fmtInt (q.2 / 60 / 60) (104 :: out) else out
    else out

/-- time/time.go `Duration.String` (libcs/config/duration.go:13-16, 39-41). -/
def print (d : Int) : Bytes := if d < 0 then 45 :: printAbs d.natAbs else printAbs d.natAbs

/-- What is assumed of the floating-point expression of `ParseDuration`: exact when the result is a whole number below
2^53 and so are the operands, and never above the unit (the fraction is below 1). -/
structure Float64 (fr : Nat → Nat → Nat → Nat) : Prop where
  exact : ∀ f unit k, 10 ^ k ∣ unit → f < 10 ^ k → unit ≤ 3600000000000 → fr f unit k = f * (unit / 10 ^ k)
  bound : ∀ f unit k, unit ≤ 3600000000000 → fr f unit k ≤ unit

/-- libcs/config/duration.go:19-23 `Set`: the new value and whether the text was accepted; a refused text leaves zero. -/
def set (fr : Nat → Nat → Nat → Nat) (old : Int) (s : Bytes) : Int × Bool :=
  match parse fr s with
  | some d => (d, true)
  | none => (0, false)

/-- libcs/config/duration.go:30-37 `UnmarshalYAML` on a scalar: a refused text leaves the old value. -/
def readYaml (fr : Nat → Nat → Nat → Nat) (old : Int) (s : Bytes) : Int × Bool :=
  match parse fr s with
  | some d => (d, true)
  | none => (old, false)

/-- A JSON value, as far as libcs/config/duration.go:43-54 looks at it. Strings are decoded. -/
inductive J where
  | null
  | str (s : Bytes)
  | other
deriving DecidableEq, Repr

/-- libcs/config/duration.go:43-54 `UnmarshalJSON`: `null` leaves the Go string empty, a value that is not a string is
refused by `encoding/json`. -/
def readJson (fr : Nat → Nat → Nat → Nat) (old : Int) (j : J) : Int × Bool :=
  match j with
  | .null => readYaml fr old []
  | .str s => readYaml fr old s
  | .other => (old, false)

/-- libcs/config/duration.go:39-41 `MarshalYAML`, 56-58 `MarshalJSON`: the text of the scalar. -/
def written (d : Int) : Bytes := print d

/-! ## Digits -/

theorem le_of_dig {c : UInt8} (h : ¬ (c.toNat < 48 ∨ c.toNat > 57)) : Digit c := by
  unfold Digit; omega

def dig (c : UInt8) : Bool := decide (48 ≤ c.toNat) && decide (c.toNat ≤ 57)

theorem dig_iff {c : UInt8} : dig c = true ↔ Digit c := by simp [dig, Digit]

/-- The number of the digits `ds` after a number `x`. -/
def val (x : Nat) (ds : Bytes) : Nat := ds.foldl (fun x b => x * 10 + (b.toNat - 48)) x

theorem num_eq (ds : Bytes) : num ds = val 0 ds := rfl

theorem val_ge (x : Nat) (ds : Bytes) : x ≤ val x ds := by
  induction ds generalizing x with
  | nil => exact Nat.le_refl _
  | cons c ds ih => have := ih (x * 10 + (c.toNat - 48)); simp only [val, List.foldl_cons] at *; omega

theorem val_append (x : Nat) (a b : Bytes) : val x (a ++ b) = val (val x a) b := by simp [val, List.foldl_append]

theorem val_lt (x : Nat) (ds : Bytes) (h : ∀ b ∈ ds, Digit b) : val x ds < (x + 1) * 10 ^ ds.length := by
  induction ds generalizing x with
  | nil => simp [val]
  | cons c ds ih =>
    have hc := h c (by simp)
    have := ih (x * 10 + (c.toNat - 48)) (fun b hb => h b (by simp [hb]))
    simp only [val, List.foldl_cons, List.length_cons] at *
    have e : (x * 10 + (c.toNat - 48) + 1) * 10 ^ ds.length ≤ ((x + 1) * 10) * 10 ^ ds.length := by
      apply Nat.mul_le_mul_right; unfold Digit at hc; omega
    have : (x + 1) * 10 ^ (ds.length + 1) = (x + 1) * 10 * 10 ^ ds.length := by
      rw [Nat.pow_succ, Nat.mul_assoc, Nat.mul_comm (10 ^ ds.length) 10]
    omega

theorem leadingInt_eq (s : Bytes) : ∀ x, x ≤ 9223372036854775808 →
    leadingInt x s = if val x (s.takeWhile dig) > 9223372036854775808 then none
      else some (val x (s.takeWhile dig), s.dropWhile dig) := by
  induction s with
  | nil => intro x hx; simp [leadingInt, val]; omega
  | cons c s ih =>
    intro x hx
    unfold leadingInt
    by_cases hc : c.toNat < 48 ∨ c.toNat > 57
    · rw [if_pos hc]
      have hd : dig c = false := by simp [dig]; omega
      simp only [List.takeWhile_cons, List.dropWhile_cons, hd, val, List.foldl_nil, Bool.false_eq_true, if_false]
      rw [if_neg (by omega)]
    · rw [if_neg hc]
      have hd : dig c = true := dig_iff.2 (le_of_dig hc)
      have he : x * 10 + c.toNat - 48 = x * 10 + (c.toNat - 48) := by omega
      simp only [List.takeWhile_cons, List.dropWhile_cons, hd, if_true]
      have hv : val x (c :: List.takeWhile dig s) = val (x * 10 + (c.toNat - 48)) (List.takeWhile dig s) := rfl
      have hge := val_ge (x * 10 + (c.toNat - 48)) (List.takeWhile dig s)
      rw [hv, he]
      by_cases h1 : x > 922337203685477580
      · rw [if_pos h1, if_pos (by omega)]
      · rw [if_neg h1]
        by_cases h2 : x * 10 + (c.toNat - 48) > 9223372036854775808
        · rw [if_pos h2, if_pos (by omega)]
        · rw [if_neg h2, ih _ (by omega)]

theorem leadingFraction_rest (s : Bytes) : ∀ o x k, (leadingFraction o x k s).2.2 = s.dropWhile dig := by
  induction s with
  | nil => intro o x k; rfl
  | cons c s ih =>
    intro o x k
    unfold leadingFraction
    by_cases hc : c.toNat < 48 ∨ c.toNat > 57
    · have hd : dig c = false := by simp [dig]; omega
      rw [if_pos hc]; simp [List.dropWhile_cons, hd]
    · have hd : dig c = true := dig_iff.2 (le_of_dig hc)
      rw [if_neg hc]
      simp only [List.dropWhile_cons, hd, if_true]
      split
      · exact ih _ _ _
      · split
        · exact ih _ _ _
        · split <;> exact ih _ _ _

theorem leadingFraction_eq (s : Bytes) : ∀ x k, (x + 1) * 10 ^ (s.takeWhile dig).length ≤ 1000000000000000000 →
    leadingFraction false x k s = (val x (s.takeWhile dig), k + (s.takeWhile dig).length, s.dropWhile dig) := by
  induction s with
  | nil => intro x k _; rfl
  | cons c s ih =>
    intro x k hx
    unfold leadingFraction
    by_cases hc : c.toNat < 48 ∨ c.toNat > 57
    · have hd : dig c = false := by simp [dig]; omega
      rw [if_pos hc]; simp [List.dropWhile_cons, List.takeWhile_cons, hd, val]
    · have hd : dig c = true := dig_iff.2 (le_of_dig hc)
      rw [if_neg hc]
      simp only [List.takeWhile_cons, List.dropWhile_cons, hd, if_true, List.length_cons] at hx ⊢
      have he : x * 10 + c.toNat - 48 = x * 10 + (c.toNat - 48) := by omega
      have hp : 0 < 10 ^ (List.takeWhile dig s).length := Nat.pos_of_ne_zero (by simp)
      have h10 : (x + 1) * 10 ^ ((List.takeWhile dig s).length + 1) = (x + 1) * 10 * 10 ^ (List.takeWhile dig s).length := by
        rw [Nat.pow_succ, Nat.mul_assoc, Nat.mul_comm (10 ^ (List.takeWhile dig s).length) 10]
      have hb : (x * 10 + (c.toNat - 48) + 1) * 10 ^ (List.takeWhile dig s).length ≤
          (x + 1) * 10 * 10 ^ (List.takeWhile dig s).length := Nat.mul_le_mul_right _ (by omega)
      have hx1 : (x + 1) * 10 ≤ (x + 1) * 10 * 10 ^ (List.takeWhile dig s).length := Nat.le_mul_of_pos_right _ hp
      simp only [Bool.false_eq_true, if_false]
      rw [if_neg (show ¬ x > 922337203685477580 by omega), he,
        if_neg (show ¬ x * 10 + (c.toNat - 48) > 9223372036854775808 by omega), ih _ _ (by omega)]
      refine Prod.ext rfl (Prod.ext ?_ rfl)
      dsimp only; omega

/-! ## One component -/

theorem size_pos (u : U) : 0 < u.size := by cases u <;> simp [U.size]
theorem size_le (u : U) : u.size ≤ 3600000000000 := by cases u <;> simp [U.size]

theorem unitMap_names (u : U) (n : Bytes) (h : n ∈ u.names) : unitMap n = some u.size := by
  cases u <;> simp [U.names] at h
  case us => rcases h with h | h | h <;> subst h <;> rfl
  all_goals subst h; rfl

theorem names_of_unitMap (n : Bytes) (k : Nat) (h : unitMap n = some k) : ∃ u : U, n ∈ u.names ∧ k = u.size := by
  unfold unitMap at h
  split at h
  · cases h; exact ⟨.ns, by simp [U.names], rfl⟩
  · cases h; exact ⟨.us, by simp [U.names], rfl⟩
  · cases h; exact ⟨.us, by simp [U.names], rfl⟩
  · cases h; exact ⟨.us, by simp [U.names], rfl⟩
  · cases h; exact ⟨.ms, by simp [U.names], rfl⟩
  · cases h; exact ⟨.s, by simp [U.names], rfl⟩
  · cases h; exact ⟨.m, by simp [U.names], rfl⟩
  · cases h; exact ⟨.h, by simp [U.names], rfl⟩
  · cases h

theorem names_ne (u : U) (n : Bytes) (h : n ∈ u.names) : n ≠ [] ∧ ∀ b ∈ n, unitByte b = true := by
  cases u <;> simp [U.names] at h
  case us => rcases h with h | h | h <;> subst h <;> exact ⟨by simp, by decide⟩
  all_goals subst h; exact ⟨by simp, by decide⟩

theorem unitByte_eq (c : UInt8) : unitByte c = !(c.toNat == 46 || dig c) := rfl

theorem unitByte_not_dig {c : UInt8} (h : unitByte c = true) : dig c = false := by
  rw [unitByte_eq] at h; simp only [Bool.not_eq_true', Bool.or_eq_false_iff] at h; exact h.2

theorem unitByte_not_dot {c : UInt8} (h : unitByte c = true) : c ≠ 46 := by
  rintro rfl; exact absurd h (by decide)

theorem dig_not_unit {c : UInt8} (h : Digit c) : unitByte c = false := by
  rw [unitByte_eq, dig_iff.2 h]; simp

theorem dot_not_dig : dig 46 = false := by decide

/-- What may follow a component: nothing, a digit or a point. -/
def Stops (rest : Bytes) : Prop := ∀ c s, rest = c :: s → unitByte c = false

theorem takeWhile_append_stop {p : UInt8 → Bool} (a b : Bytes) (ha : ∀ x ∈ a, p x = true)
    (hb : ∀ c s, b = c :: s → p c = false) : (a ++ b).takeWhile p = a ∧ (a ++ b).dropWhile p = b := by
  induction a with
  | nil =>
    cases b with
    | nil => exact ⟨rfl, rfl⟩
    | cons c s => have := hb c s rfl; simp [List.takeWhile_cons, List.dropWhile_cons, this]
  | cons x a ih =>
    have hx := ha x (by simp)
    obtain ⟨i1, i2⟩ := ih (fun y hy => ha y (by simp [hy]))
    simp [List.takeWhile_cons, List.dropWhile_cons, hx, i1, i2]

theorem append_takeDrop (p : UInt8 → Bool) (s : Bytes) :
    s = s.takeWhile p ++ s.dropWhile p ∧ (∀ b ∈ s.takeWhile p, p b = true) ∧
      (∀ c t, s.dropWhile p = c :: t → p c = false) := by
  induction s with
  | nil => exact ⟨rfl, by simp, by simp⟩
  | cons x s ih =>
    obtain ⟨i1, i2, i3⟩ := ih
    by_cases hx : p x = true
    · simp only [List.takeWhile_cons, List.dropWhile_cons, hx, if_true, List.cons_append]
      refine ⟨by rw [← i1], ?_, i3⟩
      intro b hb
      rcases List.mem_cons.1 hb with rfl | hb
      · exact hx
      · exact i2 b hb
    · simp only [List.takeWhile_cons, List.dropWhile_cons, hx, Bool.false_eq_true, if_false, List.nil_append]
      refine ⟨trivial, by simp, ?_⟩
      intro c t he
      cases he
      simpa using hx

/-- The value `ParseDuration` gives to a component whose fraction it reads exactly. -/
def tokOut (fr : Nat → Nat → Nat → Nat) (t : Tok) : Option Nat :=
  if num t.int * t.unit.size > 9223372036854775808 then none
  else if num t.frac > 0 then
    if (num t.int * t.unit.size + fr (num t.frac) t.unit.size t.frac.length) % 18446744073709551616 >
        9223372036854775808 then none
    else some ((num t.int * t.unit.size + fr (num t.frac) t.unit.size t.frac.length) % 18446744073709551616)
  else some (num t.int * t.unit.size)

/-- The rest of a round, once the digits before the point have been read. -/
theorem component_split (fr : Nat → Nat → Nat → Nat) (ds s1 : Bytes) (hd : ∀ b ∈ ds, Digit b)
    (hs1 : ∀ c t, s1 = c :: t → dig c = false) (hne : ds ≠ [] ∨ ∃ t, s1 = 46 :: t) :
    component fr (ds ++ s1) =
      if val 0 ds > 9223372036854775808 then none
      else
        let q := fraction s1
        if (decide (ds = []) && !q.2.2.2) then none
        else if q.2.2.1.takeWhile unitByte = [] then none
        else match unitMap (q.2.2.1.takeWhile unitByte) with
        | none => none
        | some unit =>
          if val 0 ds > 9223372036854775808 / unit then none
          else if q.1 > 0 then
            if (val 0 ds * unit + fr q.1 unit q.2.1) % 18446744073709551616 > 9223372036854775808 then none
            else some ((val 0 ds * unit + fr q.1 unit q.2.1) % 18446744073709551616, q.2.2.1.dropWhile unitByte)
          else some (val 0 ds * unit, q.2.2.1.dropWhile unitByte) := by
  obtain ⟨h1, h2⟩ := takeWhile_append_stop (p := dig) ds s1 (fun x hx => dig_iff.2 (hd x hx)) hs1
  have hu : ∀ c t, ds ++ s1 = c :: t → unitByte c = false := by
    intro c t he
    cases ds with
    | nil =>
      rcases hne with h | ⟨t', h⟩
      · exact absurd rfl h
      · rw [h, List.nil_append] at he; cases he; rfl
    | cons x ds => cases he; exact dig_not_unit (hd _ List.mem_cons_self)
  have hlen : ((s1.length == (ds ++ s1).length) = decide (ds = [])) := by
    cases ds with
    | nil => simp
    | cons x ds => simp; omega
  cases hs : ds ++ s1 with
  | nil =>
    exfalso
    rcases hne with h | ⟨t', h⟩
    · simp at hs; exact h hs.1
    · simp [h] at hs
  | cons c t =>
    unfold component
    dsimp only
    rw [hu c t hs, ← hs, leadingInt_eq _ 0 (by omega), h1, h2]
    simp only [Bool.false_eq_true, if_false]
    by_cases hv : val 0 ds > 9223372036854775808
    · rw [if_pos hv, if_pos hv]
    · rw [if_neg hv, if_neg hv]
      dsimp only
      rw [hlen]

theorem div_lt_iff {v u : Nat} (hu : 0 < u) : v > 9223372036854775808 / u ↔ v * u > 9223372036854775808 := by
  exact Nat.div_lt_iff_lt_mul hu

theorem fraction_dot (s : Bytes) : fraction (46 :: s) = ((leadingFraction false 0 0 s).1, (leadingFraction false 0 0 s).2.1,
    (leadingFraction false 0 0 s).2.2, (leadingFraction false 0 0 s).2.2.length != s.length) := rfl

theorem component_tok (fr : Nat → Nat → Nat → Nat) (t : Tok) (ht : t.Ok) (hl : t.frac.length ≤ 18) (rest : Bytes)
    (hr : Stops rest) : component fr (t.text ++ rest) = (tokOut fr t).map (fun v => (v, rest)) := by
  obtain ⟨hi, hf, hnd, hdg, hnm⟩ := ht
  obtain ⟨hn0, hnu⟩ := names_ne _ _ hnm
  obtain ⟨htk, hdr⟩ := takeWhile_append_stop (p := unitByte) t.name rest hnu hr
  have hnd' : ∀ c s, t.name ++ rest = c :: s → dig c = false := by
    intro c s he
    cases hn : t.name with
    | nil => exact absurd hn hn0
    | cons x n => rw [hn] at he; cases he; exact unitByte_not_dig (hnu _ (by rw [hn]; exact List.mem_cons_self))
  have hum := unitMap_names _ _ hnm
  have key : ∀ s1, s1 = (if t.dot then 46 :: t.frac else []) ++ t.name ++ rest →
      fraction s1 = (num t.frac, t.frac.length, t.name ++ rest, decide (t.frac ≠ [])) ∧
      (∀ c s, s1 = c :: s → dig c = false) ∧ (t.int ≠ [] ∨ ∃ s, s1 = 46 :: s) := by
    intro s1 he
    cases hdot : t.dot with
    | true =>
      rw [hdot] at he
      simp only [if_true, List.cons_append, List.append_assoc] at he
      subst he
      obtain ⟨h1, h2⟩ := takeWhile_append_stop (p := dig) t.frac (t.name ++ rest)
        (fun x hx => dig_iff.2 (hf x hx)) hnd'
      refine ⟨?_, ?_, Or.inr ⟨_, rfl⟩⟩
      · have hb : (0 + 1) * 10 ^ ((t.frac ++ (t.name ++ rest)).takeWhile dig).length ≤ 1000000000000000000 := by
          rw [h1]
          have := Nat.pow_le_pow_right (show 0 < 10 by omega) hl
          omega
        rw [fraction_dot, leadingFraction_eq _ 0 0 hb, h1, h2, num_eq]
        refine Prod.ext rfl (Prod.ext (by simp) (Prod.ext rfl ?_))
        cases t.frac with
        | nil => simp
        | cons x n => simp; omega
      · intro c s he; cases he; exact dot_not_dig
    | false =>
      rw [hdot] at he
      have h0 := hnd hdot
      simp only [Bool.false_eq_true, if_false, List.nil_append] at he
      subst he
      refine ⟨?_, hnd', Or.inl (by rcases hdg with h | h; exact h; exact absurd h0 h)⟩
      rw [h0]
      unfold fraction
      split
      · rename_i s' he
        cases hn : t.name with
        | nil => exact absurd hn hn0
        | cons x n => rw [hn] at he; cases he; exact absurd rfl (unitByte_not_dot (hnu 46 (by simp [hn])))
      · simp [num]
  obtain ⟨k1, k2, k3⟩ := key _ rfl
  have hs := component_split fr t.int _ hi k2 k3
  have htext : t.text ++ rest = t.int ++ ((if t.dot then 46 :: t.frac else []) ++ t.name ++ rest) := by
    simp [Tok.text, List.append_assoc]
  rw [htext, hs, k1]
  dsimp only
  rw [htk, hdr, hum, ← num_eq]
  have hc : (decide (t.int = []) && !decide (t.frac ≠ [])) = false := by
    rcases hdg with h | h <;> simp [h]
  simp only [hc, Bool.false_eq_true, if_false, hn0]
  have hz := size_pos t.unit
  have hge : num t.int ≤ num t.int * t.unit.size := Nat.le_mul_of_pos_right _ hz
  unfold tokOut
  by_cases hbig : num t.int * t.unit.size > 9223372036854775808
  · rw [if_pos hbig]
    split
    · rfl
    · rw [if_pos ((div_lt_iff hz).2 hbig)]; rfl
  · rw [if_neg hbig, if_neg (by omega), if_neg (fun h => hbig ((div_lt_iff hz).1 h))]
    by_cases hp : num t.frac > 0
    · rw [if_pos hp, if_pos hp]
      split <;> rfl
    · rw [if_neg hp, if_neg hp]; rfl

theorem component_sound (fr : Nat → Nat → Nat → Nat) (s rest : Bytes) (v : Nat) (h : component fr s = some (v, rest)) :
    ∃ t : Tok, t.Ok ∧ s = t.text ++ rest ∧ Stops rest ∧ (t.frac.length ≤ 18 → tokOut fr t = some v) := by
  obtain ⟨e1, e2, e3⟩ := append_takeDrop dig s
  have hd : ∀ b ∈ s.takeWhile dig, Digit b := fun b hb => dig_iff.1 (e2 b hb)
  have hne : s.takeWhile dig ≠ [] ∨ ∃ t, s.dropWhile dig = 46 :: t := by
    cases s with
    | nil => simp [component] at h
    | cons c s =>
      unfold component at h
      dsimp only at h
      by_cases hu : unitByte c = true
      · rw [if_pos hu] at h; cases h
      · by_cases hc : dig c = true
        · left; simp [List.takeWhile_cons, hc]
        · right
          rw [unitByte_eq] at hu
          have hc' : dig c = false := by simpa using hc
          rw [hc'] at hu
          have : c.toNat = 46 := by simpa using hu
          have : c = 46 := u8_eq_of_toNat this
          subst this
          exact ⟨s, by simp [List.dropWhile_cons, hc]⟩
  have hs := component_split fr _ _ hd e3 hne
  rw [← e1, h] at hs
  generalize s.takeWhile dig = ds at *
  generalize s.dropWhile dig = s1 at *
  split at hs
  · cases hs
  dsimp only at hs
  split at hs
  · cases hs
  rename_i hpp
  split at hs
  · cases hs
  rename_i hnm
  -- the digits after the point
  obtain ⟨dot, frac, s2, hq, hs1, hfd, hnodot, hany⟩ : ∃ (dot : Bool) (frac s2 : Bytes),
      (fraction s1).2.2.1 = s2 ∧ s1 = (if dot then 46 :: frac else []) ++ s2 ∧ (∀ b ∈ frac, Digit b) ∧
      (dot = false → frac = []) ∧ ((fraction s1).2.2.2 = true → frac ≠ []) := by
    unfold fraction
    split
    · rename_i s'
      obtain ⟨f1, f2, f3⟩ := append_takeDrop dig s'
      have hr := leadingFraction_rest s' false 0 0
      refine ⟨true, s'.takeWhile dig, s'.dropWhile dig, hr, ?_, fun b hb => dig_iff.1 (f2 b hb), by simp, ?_⟩
      · simp only [if_true, List.cons_append]; rw [← f1]
      · dsimp only
        rw [hr]
        intro hx h0
        rw [h0, List.nil_append] at f1
        rw [← f1] at hx
        simp at hx
    · exact ⟨false, [], s1, rfl, by simp, by simp, by simp, by simp⟩
  rw [hq] at hs hnm
  obtain ⟨n1, n2, n3⟩ := append_takeDrop unitByte s2
  cases hum : unitMap (s2.takeWhile unitByte) with
  | none => rw [hum] at hs; cases hs
  | some unit =>
    obtain ⟨u, hu1, hu2⟩ := names_of_unitMap _ _ hum
    have hrest : s2.dropWhile unitByte = rest := by
      rw [hum] at hs
      dsimp only at hs
      split at hs
      · cases hs
      · split at hs
        · split at hs
          · cases hs
          · cases hs; rfl
        · cases hs; rfl
    refine ⟨⟨ds, dot, frac, u, s2.takeWhile unitByte⟩, ?_, ?_, ?_, ?_⟩
    · refine ⟨hd, hfd, hnodot, ?_, hu1⟩
      by_cases h0 : ds = []
      · right
        apply hany
        simp only [h0, decide_true, Bool.true_and, Bool.not_eq_true', Bool.not_eq_false] at hpp
        simpa using hpp
      · exact Or.inl h0
    · simp only [Tok.text]
      rw [e1, hs1, ← hrest, List.append_assoc, List.append_assoc, ← n1]
    · intro c t he; rw [← hrest] at he; exact n3 c t he
    · intro hl
      have hok : (⟨ds, dot, frac, u, s2.takeWhile unitByte⟩ : Tok).Ok := by
        refine ⟨hd, hfd, hnodot, ?_, hu1⟩
        by_cases h0 : ds = []
        · right
          apply hany
          simp only [h0, decide_true, Bool.true_and, Bool.not_eq_true', Bool.not_eq_false] at hpp
          simpa using hpp
        · exact Or.inl h0
      have hst : Stops rest := by intro c t he; rw [← hrest] at he; exact n3 c t he
      have ht := component_tok fr _ hok hl rest hst
      have hte : (⟨ds, dot, frac, u, s2.takeWhile unitByte⟩ : Tok).text ++ rest = s := by
        simp only [Tok.text]
        rw [e1, hs1, ← hrest, List.append_assoc, List.append_assoc, ← n1]
      rw [hte, h] at ht
      cases ho : tokOut fr ⟨ds, dot, frac, u, s2.takeWhile unitByte⟩ with
      | none => rw [ho] at ht; cases ht
      | some w => rw [ho] at ht; cases ht; rfl

theorem whole_len {t : Tok} (h : t.Whole) : t.frac.length ≤ 12 := by
  have h1 := Nat.le_of_dvd (size_pos t.unit) h
  have h2 := size_le t.unit
  by_cases hl : t.frac.length ≤ 12
  · exact hl
  · exfalso
    have := Nat.pow_le_pow_right (show 0 < 10 by omega) (show 13 ≤ t.frac.length by omega)
    omega

theorem tokOut_whole {fr : Nat → Nat → Nat → Nat} (hF : Float64 fr) {t : Tok} (ht : t.Ok) (hw : t.Whole) :
    tokOut fr t = if t.value > 9223372036854775808 then none else some t.value := by
  have hlt : num t.frac < 10 ^ t.frac.length := by
    have := val_lt 0 t.frac ht.frac; rw [← num_eq] at this; omega
  have he := hF.exact _ _ _ hw hlt (size_le t.unit)
  have hb := hF.bound (num t.frac) t.unit.size t.frac.length (size_le t.unit)
  have hz := size_le t.unit
  rw [he] at hb
  unfold tokOut Tok.value
  rw [he]
  by_cases hbig : num t.int * t.unit.size > 9223372036854775808
  · rw [if_pos hbig, if_pos (by omega)]
  · rw [if_neg hbig, Nat.mod_eq_of_lt (by omega)]
    by_cases hp : num t.frac > 0
    · rw [if_pos hp]
    · have : num t.frac = 0 := by omega
      rw [if_neg hp, this, Nat.zero_mul, Nat.add_zero, if_neg hbig]

/-! ## The loop -/

theorem text_cons (t : Tok) (ts : List Tok) : text (t :: ts) = t.text ++ text ts := by simp [text]
theorem total_cons (t : Tok) (ts : List Tok) : total (t :: ts) = t.value + total ts := by simp [total]

theorem tok_head {t : Tok} (ht : t.Ok) : ∃ c s, t.text = c :: s ∧ unitByte c = false := by
  obtain ⟨hi, hf, hnd, hdg, hnm⟩ := ht
  unfold Tok.text
  cases hI : t.int with
  | cons c s => exact ⟨c, _, rfl, dig_not_unit (hi c (by simp [hI]))⟩
  | nil =>
    cases hD : t.dot with
    | true => exact ⟨46, t.frac ++ t.name, by simp, rfl⟩
    | false => exact absurd (hnd hD) (by rcases hdg with h | h; exact absurd hI h; exact h)

theorem text_stops {ts : List Tok} (h : ∀ t ∈ ts, t.Ok) : Stops (text ts) := by
  intro c s he
  cases ts with
  | nil => simp [text] at he
  | cons t ts =>
    obtain ⟨c', s', h1, h2⟩ := tok_head (h t (by simp))
    rw [text_cons, h1] at he
    cases he
    exact h2

theorem loop_toks {fr : Nat → Nat → Nat → Nat} (hF : Float64 fr) (ts : List Tok) :
    ∀ d f, (∀ t ∈ ts, t.Ok ∧ t.Whole) → (text ts).length ≤ f → d ≤ 9223372036854775808 →
      (d + total ts ≤ 9223372036854775808 → loop fr f d (text ts) = some (d + total ts)) ∧
      (d + total ts > 9223372036854775808 → (∀ t ∈ ts, t.value ≠ 9223372036854775808) →
        loop fr f d (text ts) = none) := by
  induction ts with
  | nil =>
    intro d f _ _ hd
    refine ⟨fun _ => by cases f <;> rfl, fun h => ?_⟩
    simp [total] at h; omega
  | cons t ts ih =>
    intro d f hok hf hd
    obtain ⟨ho, hw⟩ := hok t (by simp)
    have hts : ∀ t ∈ ts, t.Ok ∧ t.Whole := fun x hx => hok x (by simp [hx])
    obtain ⟨c, s, hcs, _⟩ := tok_head ho
    have hcomp := component_tok fr t ho (by have := whole_len hw; omega) (text ts) (text_stops fun x hx => (hts x hx).1)
    rw [tokOut_whole hF ho hw] at hcomp
    rw [text_cons] at hf ⊢
    rw [total_cons]
    rw [List.length_append, hcs, List.length_cons] at hf
    obtain ⟨f', rfl⟩ : ∃ f', f = f' + 1 := ⟨f - 1, by omega⟩
    have hstep : loop fr (f' + 1) d (t.text ++ text ts) =
        if t.value > 9223372036854775808 then none
        else if (d + t.value) % 18446744073709551616 > 9223372036854775808 then none
        else loop fr f' ((d + t.value) % 18446744073709551616) (text ts) := by
      rw [hcs, List.cons_append]
      conv => lhs; unfold loop
      rw [← List.cons_append, ← hcs, hcomp]
      by_cases hv : t.value > 9223372036854775808
      · rw [if_pos hv, if_pos hv]; rfl
      · rw [if_neg hv, if_neg hv]; rfl
    rw [hstep]
    constructor
    · intro hle
      rw [if_neg (by omega), Nat.mod_eq_of_lt (by omega), if_neg (by omega)]
      rw [(ih (d + t.value) f' hts (by omega) (by omega)).1 (by omega)]
      congr 1; omega
    · intro hgt hne
      have hn := hne t (by simp)
      by_cases hv : t.value > 9223372036854775808
      · rw [if_pos hv]
      · rw [if_neg hv, Nat.mod_eq_of_lt (by omega)]
        by_cases hx : d + t.value > 9223372036854775808
        · rw [if_pos hx]
        · rw [if_neg hx]
          exact (ih (d + t.value) f' hts (by omega) (by omega)).2 (by omega) (fun x hx => hne x (by simp [hx]))

theorem loop_sound {fr : Nat → Nat → Nat → Nat} : ∀ f d s x, loop fr f d s = some x →
    ∃ ts : List Tok, (∀ t ∈ ts, t.Ok) ∧ s = text ts := by
  intro f
  induction f with
  | zero =>
    intro d s x h
    cases s with
    | nil => exact ⟨[], by simp, rfl⟩
    | cons c s => simp [loop] at h
  | succ f ih =>
    intro d s x h
    cases s with
    | nil => exact ⟨[], by simp, rfl⟩
    | cons c s =>
      unfold loop at h
      cases hc : component fr (c :: s) with
      | none => rw [hc] at h; cases h
      | some q =>
        obtain ⟨v, rest⟩ := q
        rw [hc] at h
        dsimp only at h
        split at h
        · cases h
        · obtain ⟨ts, h1, h2⟩ := ih _ _ _ h
          obtain ⟨t, ht, hs, _, _⟩ := component_sound fr _ _ _ hc
          refine ⟨t :: ts, ?_, ?_⟩
          · intro y hy
            rcases List.mem_cons.1 hy with rfl | hy
            · exact ht
            · exact h1 y hy
          · rw [text_cons, ← h2]; exact hs

/-! ## Reading -/

theorem sign_text (sg : Sign) (r : Bytes) (hr : ∀ c s, r = c :: s → unitByte c = false) :
    sign (sg.text ++ r) = (decide (sg = .minus), r) := by
  cases sg with
  | plus => rfl
  | minus => rfl
  | none =>
    simp only [Sign.text, List.nil_append]
    unfold sign
    split
    · exact absurd (hr _ _ rfl) (by decide)
    · exact absurd (hr _ _ rfl) (by decide)
    · rfl

theorem text_ne_zero {ts : List Tok} (h : ∀ t ∈ ts, t.Ok) (hne : ts ≠ []) : text ts ≠ [48] ∧ text ts ≠ [] := by
  cases ts with
  | nil => exact absurd rfl hne
  | cons t ts =>
    have ho := h t (by simp)
    obtain ⟨hn0, hnu⟩ := names_ne _ _ ho.name
    constructor
    · intro he
      have hm : ∀ b ∈ t.name, b ∈ text (t :: ts) := by
        intro b hb; rw [text_cons]; simp [Tok.text, hb]
      rw [he] at hm
      cases hn : t.name with
      | nil => exact hn0 hn
      | cons x n =>
        have h1 := hm x (by simp [hn])
        have h2 := hnu x (by simp [hn])
        rw [List.mem_singleton] at h1
        subst h1
        exact absurd h2 (by decide)
    · intro he
      obtain ⟨c, s, h1, _⟩ := tok_head ho
      rw [text_cons, h1] at he
      cases he

/-- The value fits in 64 bits with its sign. -/
def Fits (sg : Sign) (n : Nat) : Prop :=
  match sg with
  | .minus => n ≤ 9223372036854775808
  | _ => n < 9223372036854775808

instance (sg : Sign) (n : Nat) : Decidable (Fits sg n) := by unfold Fits; cases sg <;> infer_instance

/-- **C143.** Every text of components with whole nanoseconds is read as exactly the duration it denotes, or refused when
that does not fit in 64 bits. (The last hypothesis is about texts that do not fit: none of their components is exactly
2^63 ns; see `wraps_to_zero`.) -/
theorem reads_exactly {fr : Nat → Nat → Nat → Nat} (hF : Float64 fr) (sg : Sign) (ts : List Tok) (hne : ts ≠ [])
    (hok : ∀ t ∈ ts, t.Ok ∧ t.Whole)
    (hq : total ts ≤ 9223372036854775808 ∨ ∀ t ∈ ts, t.value ≠ 9223372036854775808) :
    parse fr (sg.text ++ text ts) = if Fits sg (total ts) then some (sg.apply (total ts)) else none := by
  have hok' : ∀ t ∈ ts, t.Ok := fun t ht => (hok t ht).1
  obtain ⟨z1, z2⟩ := text_ne_zero hok' hne
  obtain ⟨l1, l2⟩ := loop_toks hF ts 0 (text ts).length hok (Nat.le_refl _) (by omega)
  unfold parse
  rw [sign_text sg _ (text_stops hok')]
  dsimp only
  rw [if_neg z1, if_neg z2]
  by_cases hle : total ts ≤ 9223372036854775808
  · rw [l1 (by omega), Nat.zero_add]
    dsimp only
    by_cases hf : Fits sg (total ts)
    · rw [if_pos hf]
      cases sg with
      | minus => rfl
      | none => simp only [Fits] at hf; simp [Sign.apply]; omega
      | plus => simp only [Fits] at hf; simp [Sign.apply]; omega
    · rw [if_neg hf]
      cases sg with
      | minus => exact absurd hle hf
      | none => simp only [Fits] at hf; simp [Sign.apply]; omega
      | plus => simp only [Fits] at hf; simp [Sign.apply]; omega
  · rw [l2 (by omega) (by rcases hq with h | h; exact absurd h hle; exact h)]
    rw [if_neg (by cases sg <;> simp [Fits] <;> omega)]

/-- **C143.** Only such texts, and zero without a unit, are accepted. -/
theorem accepted_form {fr : Nat → Nat → Nat → Nat} (s : Bytes) (x : Int) (h : parse fr s = some x) :
    ∃ sg : Sign, (s = sg.text ++ [48] ∧ x = 0) ∨
      ∃ ts : List Tok, ts ≠ [] ∧ (∀ t ∈ ts, t.Ok) ∧ s = sg.text ++ text ts := by
  obtain ⟨sg, hs⟩ : ∃ sg : Sign, s = sg.text ++ (sign s).2 := by
    unfold sign
    split
    · exact ⟨.minus, rfl⟩
    · exact ⟨.plus, rfl⟩
    · exact ⟨.none, rfl⟩
  refine ⟨sg, ?_⟩
  unfold parse at h
  dsimp only at h
  split at h
  · rename_i h0
    left
    rw [h0] at hs
    exact ⟨hs, (Option.some.inj h).symm⟩
  · split at h
    · cases h
    · rename_i hn0
      cases hl : loop fr (sign s).2.length 0 (sign s).2 with
      | none => rw [hl] at h; cases h
      | some d =>
        obtain ⟨ts, t1, t2⟩ := loop_sound _ _ _ _ hl
        right
        refine ⟨ts, ?_, t1, by rw [← t2]; exact hs⟩
        rintro rfl
        exact hn0 (by rw [t2]; rfl)

/-- **C143.** A number without a unit is refused, whatever it is, except a single zero. -/
theorem unit_needed {fr : Nat → Nat → Nat → Nat} (ds : Bytes) (hd : ∀ b ∈ ds, Digit b) (h0 : ds ≠ [48]) :
    parse fr ds = none := by
  cases hp : parse fr ds with
  | none => rfl
  | some x =>
    exfalso
    obtain ⟨sg, ⟨hs, _⟩ | ⟨ts, hne, hok, hs⟩⟩ := accepted_form _ _ hp
    · cases sg with
      | none => exact h0 hs
      | plus => have := hd 43 (by simp [hs, Sign.text]); simp [Digit] at this
      | minus => have := hd 45 (by simp [hs, Sign.text]); simp [Digit] at this
    · cases ts with
      | nil => exact hne rfl
      | cons t ts =>
        have ho := hok t (by simp)
        obtain ⟨hn0, hnu⟩ := names_ne _ _ ho.name
        cases hn : t.name with
        | nil => exact hn0 hn
        | cons b n =>
          have h1 : b ∈ ds := by rw [hs, text_cons]; simp [Tok.text, hn]
          have h2 := dig_not_unit (hd b h1)
          rw [hnu b (by simp [hn])] at h2
          cases h2

/-! ## Writing -/

theorem ofNat_digit (n : Nat) : Digit (UInt8.ofNat (48 + n % 10)) ∧ (UInt8.ofNat (48 + n % 10)).toNat - 48 = n % 10 := by
  have := u8_ofNat_toNat (n := 48 + n % 10) (by omega)
  unfold Digit
  omega

theorem num_snoc (ds : Bytes) (c : UInt8) : num (ds ++ [c]) = num ds * 10 + (c.toNat - 48) := by
  simp [num, List.foldl_append]

theorem intLoop_eq : ∀ f v out, v ≤ f → ∃ ds : Bytes, (∀ b ∈ ds, Digit b) ∧ num ds = v ∧ (v ≠ 0 → ds ≠ []) ∧
    intLoop f v out = ds ++ out := by
  intro f
  induction f with
  | zero => intro v out h; exact ⟨[], by simp, by simp [num]; omega, by omega, rfl⟩
  | succ f ih =>
    intro v out h
    unfold intLoop
    by_cases h0 : v = 0
    · rw [if_pos h0]; exact ⟨[], by simp, by simp [num, h0], by omega, rfl⟩
    · rw [if_neg h0]
      obtain ⟨ds, d1, d2, d3, d4⟩ := ih (v / 10) (UInt8.ofNat (48 + v % 10) :: out) (by omega)
      obtain ⟨o1, o2⟩ := ofNat_digit v
      refine ⟨ds ++ [UInt8.ofNat (48 + v % 10)], ?_, ?_, by simp, by rw [d4]; simp⟩
      · intro b hb
        rcases List.mem_append.1 hb with hb | hb
        · exact d1 b hb
        · rw [List.mem_singleton] at hb; subst hb; exact o1
      · rw [num_snoc, d2, o2]; omega

theorem fmtInt_eq (v : Nat) (out : Bytes) : ∃ ds : Bytes, (∀ b ∈ ds, Digit b) ∧ num ds = v ∧ ds ≠ [] ∧
    fmtInt v out = ds ++ out := by
  unfold fmtInt
  by_cases h0 : v = 0
  · rw [if_pos h0]; exact ⟨[48], by simp [Digit], by simp [num, h0], by simp, rfl⟩
  · rw [if_neg h0]
    obtain ⟨ds, d1, d2, d3, d4⟩ := intLoop_eq v v out (Nat.le_refl _)
    exact ⟨ds, d1, d2, d3 h0, d4⟩

theorem mod_pow_succ (v i : Nat) : v % 10 ^ (i + 1) = v % 10 + 10 * (v / 10 % 10 ^ i) := by
  rw [Nat.pow_succ, Nat.mul_comm (10 ^ i) 10, Nat.mod_mul]

theorem div_pow_succ (v i : Nat) : v / 10 / 10 ^ i = v / 10 ^ (i + 1) := by
  rw [Nat.pow_succ, Nat.mul_comm (10 ^ i) 10, Nat.div_div_eq_div_mul]

theorem fracLoop_true : ∀ i v out, ∃ ds : Bytes, (∀ b ∈ ds, Digit b) ∧ ds.length = i ∧ num ds = v % 10 ^ i ∧
    fracLoop i v true out = (ds ++ out, v / 10 ^ i, true) := by
  intro i
  induction i with
  | zero => intro v out; exact ⟨[], by simp, rfl, by simp [num, Nat.mod_one], by simp [fracLoop]⟩
  | succ i ih =>
    intro v out
    obtain ⟨ds, d1, d2, d3, d4⟩ := ih (v / 10) (UInt8.ofNat (48 + v % 10) :: out)
    obtain ⟨o1, o2⟩ := ofNat_digit v
    refine ⟨ds ++ [UInt8.ofNat (48 + v % 10)], ?_, by simp [d2], ?_, ?_⟩
    · intro b hb
      rcases List.mem_append.1 hb with hb | hb
      · exact d1 b hb
      · rw [List.mem_singleton] at hb; subst hb; exact o1
    · rw [num_snoc, d3, o2, mod_pow_succ]; omega
    · unfold fracLoop
      simp only [Bool.true_or, if_true]
      rw [d4, div_pow_succ]
      simp

theorem fracLoop_false : ∀ i v out,
    (v % 10 ^ i = 0 ∧ fracLoop i v false out = (out, v / 10 ^ i, false)) ∨
    ∃ ds : Bytes, ds ≠ [] ∧ (∀ b ∈ ds, Digit b) ∧ ds.length ≤ i ∧ num ds * 10 ^ (i - ds.length) = v % 10 ^ i ∧
      fracLoop i v false out = (ds ++ out, v / 10 ^ i, true) := by
  intro i
  induction i with
  | zero => intro v out; left; exact ⟨by simp [Nat.mod_one], by simp [fracLoop]⟩
  | succ i ih =>
    intro v out
    by_cases h0 : v % 10 = 0
    · have hstep : fracLoop (i + 1) v false out = fracLoop i (v / 10) false out := by
        conv => lhs; unfold fracLoop
        simp [h0]
      rw [hstep, mod_pow_succ, h0]
      rcases ih (v / 10) out with ⟨a1, a2⟩ | ⟨ds, b1, b2, b3, b4, b5⟩
      · left; exact ⟨by omega, by rw [a2, div_pow_succ]⟩
      · right
        refine ⟨ds, b1, b2, by omega, ?_, by rw [b5, div_pow_succ]⟩
        rw [← b4, show i + 1 - ds.length = (i - ds.length) + 1 by omega, Nat.pow_succ]
        rw [← Nat.mul_assoc]; omega
    · right
      obtain ⟨ds, d1, d2, d3, d4⟩ := fracLoop_true i (v / 10) (UInt8.ofNat (48 + v % 10) :: out)
      obtain ⟨o1, o2⟩ := ofNat_digit v
      refine ⟨ds ++ [UInt8.ofNat (48 + v % 10)], by simp, ?_, by simp [d2], ?_, ?_⟩
      · intro b hb
        rcases List.mem_append.1 hb with hb | hb
        · exact d1 b hb
        · rw [List.mem_singleton] at hb; subst hb; exact o1
      · rw [num_snoc, d3, o2, mod_pow_succ]
        simp [d2]; omega
      · conv => lhs; unfold fracLoop
        have : (v % 10 != 0) = true := by simpa using h0
        simp only [this, Bool.false_or, if_true]
        rw [d4, div_pow_succ]; simp

theorem fmtFrac_eq (prec v : Nat) (out : Bytes) : ∃ (dot : Bool) (ds : Bytes), (∀ b ∈ ds, Digit b) ∧
    (dot = false → ds = []) ∧ ds.length ≤ prec ∧ num ds * 10 ^ (prec - ds.length) = v % 10 ^ prec ∧
    fmtFrac prec v out = ((if dot then 46 :: ds else []) ++ out, v / 10 ^ prec) := by
  unfold fmtFrac
  rcases fracLoop_false prec v out with ⟨a1, a2⟩ | ⟨ds, b1, b2, b3, b4, b5⟩
  · exact ⟨false, [], by simp, fun _ => rfl, by simp, by simp [num, a1], by rw [a2]; simp⟩
  · exact ⟨true, ds, b2, by simp, b3, b4, by rw [b5]; simp⟩

/-- A component printed with the fraction of `v` in a unit of 10^prec nanoseconds. -/
theorem print_tok (prec v i : Nat) (u : U) (n : Bytes) (rest : Bytes) (hn : n ∈ u.names) (hu : u.size = 10 ^ prec) :
    ∃ t : Tok, t.Ok ∧ t.Whole ∧ t.value = i * 10 ^ prec + v % 10 ^ prec ∧
      fmtInt i (fmtFrac prec v (n ++ rest)).1 = t.text ++ rest := by
  obtain ⟨dot, fs, f1, f2, f3, f4, f5⟩ := fmtFrac_eq prec v (n ++ rest)
  obtain ⟨ds, d1, d2, d3, d4⟩ := fmtInt_eq i (fmtFrac prec v (n ++ rest)).1
  have hp : (10 : Nat) ^ prec = 10 ^ (prec - fs.length) * 10 ^ fs.length := by
    rw [← Nat.pow_add]; congr 1; omega
  have hpos : 0 < 10 ^ fs.length := Nat.pos_of_ne_zero (by simp)
  refine ⟨⟨ds, dot, fs, u, n⟩, ⟨d1, f1, f2, Or.inl d3, hn⟩, ?_, ?_, ?_⟩
  · unfold Tok.Whole; dsimp only; rw [hu, hp]; exact Nat.dvd_mul_left _ _
  · unfold Tok.value; dsimp only
    rw [d2, hu, ← f4]
    congr 2
    rw [hp]; exact Nat.mul_div_cancel _ hpos
  · rw [d4, f5]; simp [Tok.text, List.append_assoc]

theorem print_int (i : Nat) (u : U) (c : UInt8) (rest : Bytes) (hn : [c] ∈ u.names) :
    ∃ t : Tok, t.Ok ∧ t.Whole ∧ t.value = i * u.size ∧ fmtInt i (c :: rest) = t.text ++ rest := by
  obtain ⟨ds, d1, d2, d3, d4⟩ := fmtInt_eq i (c :: rest)
  refine ⟨⟨ds, false, [], u, [c]⟩, ⟨d1, by simp, fun _ => rfl, Or.inl d3, hn⟩, ?_, ?_, ?_⟩
  · unfold Tok.Whole; simp
  · unfold Tok.value; dsimp only; rw [d2]; simp [num]
  · rw [d4]; simp [Tok.text]

theorem print_tok' (prec P v i : Nat) (hP : 10 ^ prec = P) (u : U) (n : Bytes) (hn : n ∈ u.names) (hu : u.size = P) :
    ∃ t : Tok, t.Ok ∧ t.Whole ∧ t.value = i * P + v % P ∧ (fmtFrac prec v n).2 = v / P ∧
      fmtInt i (fmtFrac prec v n).1 = t.text := by
  subst hP
  obtain ⟨t, t1, t2, t3, t4⟩ := print_tok prec v i u n [] hn hu
  obtain ⟨_, _, _, _, _, _, f5⟩ := fmtFrac_eq prec v n
  simp only [List.append_nil] at t4
  exact ⟨t, t1, t2, t3, by rw [f5], t4⟩

theorem split_time (u P A B : Nat) (hA : A = 60 * P) (hB : B = 60 * A) :
    u / P / 60 / 60 * B + (u / P / 60 % 60 * A + (u / P % 60 * P + u % P)) = u ∧
    u / P / 60 % 60 * A + (u / P % 60 * P + u % P) + u / P / 60 / 60 * B = u := by
  have h1 := Nat.div_add_mod' u P
  have h2 := Nat.div_add_mod' (u / P) 60
  have h3 := Nat.div_add_mod' (u / P / 60) 60
  generalize u / P / 60 / 60 = h at *
  generalize u / P / 60 % 60 = m at *
  generalize u / P % 60 = s at *
  have e : h * B + (m * A + (s * P + u % P)) = u := by
    conv => rhs; rw [← h1, ← h2, ← h3]
    rw [hB, hA]
    simp only [Nat.add_mul, Nat.mul_assoc, Nat.add_assoc]
  exact ⟨e, by omega⟩

theorem printAbs_denotes (u : Nat) : ∃ ts : List Tok, ts ≠ [] ∧ (∀ t ∈ ts, t.Ok ∧ t.Whole) ∧
    printAbs u = text ts ∧ total ts = u := by
  have one : ∀ (prec : Nat) (U : U) (n : Bytes), n ∈ U.names → U.size = 10 ^ prec →
      ∃ ts : List Tok, ts ≠ [] ∧ (∀ t ∈ ts, t.Ok ∧ t.Whole) ∧
        (let q := fmtFrac prec u n; fmtInt q.2 q.1) = text ts ∧ total ts = u := by
    intro prec U n hn hu
    obtain ⟨t, t1, t2, t3, t4⟩ := print_tok prec u (u / 10 ^ prec) U n [] hn hu
    obtain ⟨_, _, _, _, _, _, f5⟩ := fmtFrac_eq prec u n
    refine ⟨[t], by simp, by simp [t1, t2], ?_, ?_⟩
    · dsimp only
      rw [show (fmtFrac prec u n).2 = u / 10 ^ prec by rw [f5]]
      simp only [List.append_nil] at t4
      rw [t4]; simp [text]
    · simp only [total, List.map_cons, List.map_nil, List.sum_cons, List.sum_nil, Nat.add_zero, t3]
      exact Nat.div_add_mod' u (10 ^ prec)
  unfold printAbs
  split
  · rename_i h0
    exact ⟨[⟨[48], false, [], .s, [115]⟩], by simp,
      by simp [Tok.Whole]; exact ⟨by simp [Digit], by simp, by simp, by simp, by simp [U.names]⟩, rfl,
      by simp [total, Tok.value, num, h0]⟩
  split
  · exact one 0 .ns _ (by simp [U.names]) (by simp [U.size])
  split
  · exact one 3 .us _ (by simp [U.names]) (by simp [U.size])
  split
  · exact one 6 .ms _ (by simp [U.names]) (by simp [U.size])
  obtain ⟨ts, t1, t2, t3, hq, t4⟩ := print_tok' 9 1000000000 u (u / 1000000000 % 60) (by simp) .s [115]
    (by simp [U.names]) rfl
  obtain ⟨tm, m1, m2, m3, m4⟩ := print_int (u / 1000000000 / 60 % 60) .m 109 ts.text (by simp [U.names])
  obtain ⟨th, h1, h2, h3, h4⟩ := print_int (u / 1000000000 / 60 / 60) .h 104 (tm.text ++ ts.text) (by simp [U.names])
  dsimp only
  rw [hq, t4, m4, h4]
  simp only [U.size] at m3 h3
  have tz : total [] = 0 := rfl
  have hsp := (split_time u 1000000000 60000000000 3600000000000 (by simp) (by simp)).1
  split
  · split
    · refine ⟨[th, tm, ts], by simp, by simp [t1, t2, m1, m2, h1, h2], by simp [text], ?_⟩
      rw [total_cons, total_cons, total_cons, t3, m3, h3, tz, Nat.add_zero]
      exact hsp
    · rename_i hh
      refine ⟨[tm, ts], by simp, by simp [t1, t2, m1, m2], by simp [text], ?_⟩
      rw [total_cons, total_cons, t3, m3, tz, Nat.add_zero]
      rw [Nat.eq_zero_of_not_pos hh, Nat.zero_mul, Nat.zero_add] at hsp
      exact hsp
  · rename_i hh
    refine ⟨[ts], by simp, by simp [t1, t2], by simp [text], ?_⟩
    rw [total_cons, t3, tz, Nat.add_zero]
    rw [Nat.eq_zero_of_not_pos hh, Nat.zero_div, Nat.zero_mul, Nat.zero_add, Nat.zero_add] at hsp
    exact hsp

/-- **C143.** What is written denotes exactly the duration, with its sign. -/
theorem written_denotes (d : Int) : ∃ (sg : Sign) (ts : List Tok), ts ≠ [] ∧ (∀ t ∈ ts, t.Ok ∧ t.Whole) ∧
    written d = sg.text ++ text ts ∧ d = sg.apply (total ts) ∧ (sg = .minus ↔ d < 0) ∧ sg ≠ .plus := by
  obtain ⟨ts, t1, t2, t3, t4⟩ := printAbs_denotes d.natAbs
  unfold written print
  by_cases hd : d < 0
  · refine ⟨.minus, ts, t1, t2, by rw [if_pos hd, t3]; rfl, ?_, by simp [hd], by simp⟩
    simp only [Sign.apply, t4]; omega
  · refine ⟨.none, ts, t1, t2, by rw [if_neg hd, t3]; rfl, ?_, by simp [hd], by simp⟩
    simp only [Sign.apply, t4]; omega

/-- **C143.** A duration that is saved and read again is the same, for each of the 2^64 durations, from a file and from a
form, whatever was there before. -/
theorem round_trip {fr : Nat → Nat → Nat → Nat} (hF : Float64 fr) (d old : Int)
    (h1 : -9223372036854775808 ≤ d) (h2 : d < 9223372036854775808) :
    readYaml fr old (written d) = (d, true) ∧ readJson fr old (.str (written d)) = (d, true) ∧
      set fr old (written d) = (d, true) := by
  obtain ⟨sg, ts, t1, t2, t3, t4, t5, t6⟩ := written_denotes d
  have hp : parse fr (written d) = some d := by
    have hle : total ts ≤ 9223372036854775808 := by
      cases sg <;> simp [Sign.apply] at t4 <;> omega
    rw [t3, reads_exactly hF sg ts t1 t2 (Or.inl hle), if_pos, ← t4]
    cases sg with
    | none => simp [Sign.apply] at t4; simp [Fits]; omega
    | plus => exact absurd rfl t6
    | minus => exact hle
  simp [readYaml, readJson, set, hp]

/-- **C143.** Different durations are written differently. -/
theorem written_inj (d e : Int) (h : written d = written e) (hd : -9223372036854775808 ≤ d ∧ d < 9223372036854775808)
    (he : -9223372036854775808 ≤ e ∧ e < 9223372036854775808) : d = e := by
  have hF : Float64 (fun f u k => if f < 10 ^ k then f * (u / 10 ^ k) else 0) := by
    refine ⟨fun f u k _ h _ => if_pos h, fun f u k _ => ?_⟩
    split
    · rename_i hf
      have h1 : f * (u / 10 ^ k) ≤ 10 ^ k * (u / 10 ^ k) := Nat.mul_le_mul_right _ (by omega)
      have h2 := Nat.mul_div_le u (10 ^ k)
      omega
    · omega
  have a := (round_trip hF d 0 hd.1 hd.2).1
  have b := (round_trip hF e 0 he.1 he.2).1
  rw [h, b] at a
  exact (Prod.mk.inj a).1.symm

/-- **C143.** A refused text in a file or a form leaves the option as it was; a refused text on the command line leaves
zero (the program then ends, libcs/config/config.go). -/
theorem refused_keeps (fr : Nat → Nat → Nat → Nat) (old : Int) (s : Bytes) (h : parse fr s = none) :
    readYaml fr old s = (old, false) ∧ readJson fr old (.str s) = (old, false) ∧ set fr old s = (0, false) := by
  simp [readYaml, readJson, set, h]

/-- **C143.** JSON `null` and JSON numbers are refused. -/
theorem json_needs_text (fr : Nat → Nat → Nat → Nat) (old : Int) :
    readJson fr old .null = (old, false) ∧ readJson fr old .other = (old, false) := ⟨rfl, rfl⟩

/-- **C143, finding.** A negative duration is accepted like any other: `-5s` for a timeout is a timeout of minus five
seconds, which the checks `> 0` (libcs/server/conn.go:110, 190, 834) take for "no timeout". -/
theorem negative_accepted {fr : Nat → Nat → Nat → Nat} (hF : Float64 fr) (ts : List Tok) (hne : ts ≠ [])
    (hok : ∀ t ∈ ts, t.Ok ∧ t.Whole) (hle : total ts ≤ 9223372036854775808) :
    parse fr (45 :: text ts) = some (-(total ts : Int)) := by
  have := reads_exactly hF .minus ts hne hok (Or.inl hle)
  rw [if_pos (show Fits .minus (total ts) from hle)] at this
  exact this

/-- 2^63 ns, the one amount whose repetition is not noticed. -/
def halfRange : Tok := ⟨[57, 50, 50, 51, 51, 55, 50, 48, 51, 54, 56, 53, 52, 55, 55, 53, 56, 48, 56], false, [], .ns, [110, 115]⟩

/-- **C143, finding.** `9223372036854775808ns9223372036854775808ns` is accepted as zero: the sum is checked after it has
wrapped around. -/
theorem wraps_to_zero (fr : Nat → Nat → Nat → Nat) :
    parse fr (text [halfRange, halfRange]) = some 0 ∧ total [halfRange, halfRange] = 18446744073709551616 := by
  have hok : halfRange.Ok := ⟨by simp [halfRange, Digit], by simp [halfRange], fun _ => rfl, by simp [halfRange], by simp [halfRange, U.names]⟩
  have hv : tokOut fr halfRange = some 9223372036854775808 := by
    have e : num halfRange.int = 9223372036854775808 := by decide +kernel
    have f : num halfRange.frac = 0 := rfl
    have g : halfRange.unit.size = 1 := rfl
    simp [tokOut, e, f, g]
  refine ⟨?_, by decide +kernel⟩
  have c1 := component_tok fr halfRange hok (by decide) (text [halfRange]) (text_stops (by simpa using hok))
  have c2 := component_tok fr halfRange hok (by decide) (text []) (text_stops (by simp))
  rw [hv] at c1 c2
  have e2 : text [halfRange, halfRange] = halfRange.text ++ text [halfRange] := text_cons _ _
  have e1 : text [halfRange] = halfRange.text ++ text [] := text_cons _ _
  have l2 : ∀ f, loop fr (f + 1) 9223372036854775808 (text [halfRange]) = some 0 := by
    intro f
    rw [e1] 
    obtain ⟨c, s, hcs, _⟩ := tok_head hok
    rw [hcs] at c2 ⊢
    rw [List.cons_append] at c2 ⊢
    unfold loop
    rw [c2]
    dsimp only [Option.map]
    rw [show (9223372036854775808 + 9223372036854775808) % 18446744073709551616 = 0 by decide, if_neg (by decide)]
    have e0 : text [] = [] := rfl
    rw [e0]
    unfold loop
    rfl
  have l1 : ∀ f, loop fr (f + 2) 0 (text [halfRange, halfRange]) = some 0 := by
    intro f
    rw [e2]
    obtain ⟨c, s, hcs, _⟩ := tok_head hok
    rw [hcs] at c1 ⊢
    rw [List.cons_append] at c1 ⊢
    unfold loop
    rw [c1]
    dsimp only [Option.map]
    rw [show (0 + 9223372036854775808) % 18446744073709551616 = 9223372036854775808 by decide, if_neg (by decide)]
    exact l2 f
  obtain ⟨z1, z2⟩ := text_ne_zero (ts := [halfRange, halfRange]) (by simpa using hok) (by simp)
  have hs := sign_text .none (text [halfRange, halfRange]) (text_stops (by simpa using hok))
  simp only [Sign.text, List.nil_append] at hs
  unfold parse
  rw [hs]
  dsimp only
  rw [if_neg z1, if_neg z2]
  have hl : (text [halfRange, halfRange]).length = 40 + 2 := by decide +kernel
  rw [hl, l1]
  simp

/-! ## Examples -/

/-- An exact stand-in for the floating-point expression: `Float64` can be satisfied. -/
def exactly (f u k : Nat) : Nat := if f < 10 ^ k then f * (u / 10 ^ k) else 0

theorem exactly_ok : Float64 exactly := by
  refine ⟨fun f u k _ h _ => if_pos h, fun f u k _ => ?_⟩
  unfold exactly
  split
  · rename_i hf
    have h1 : f * (u / 10 ^ k) ≤ 10 ^ k * (u / 10 ^ k) := Nat.mul_le_mul_right _ (by omega)
    have h2 := Nat.mul_div_le u (10 ^ k)
    omega
  · omega

/-- `1h2.5m` is 3750 s; the hypotheses of `reads_exactly` hold of it. -/
def hourTwoAndAHalf : List Tok := [⟨[49], false, [], .h, [104]⟩, ⟨[50], true, [53], .m, [109]⟩]

theorem example_reads : (∀ t ∈ hourTwoAndAHalf, t.Ok ∧ t.Whole) ∧ total hourTwoAndAHalf = 3750000000000 ∧
    parse exactly [49, 104, 50, 46, 53, 109] = some 3750000000000 := by
  refine ⟨?_, by decide +kernel, by decide +kernel⟩
  intro t ht
  simp [hourTwoAndAHalf] at ht
  rcases ht with rfl | rfl
  · exact ⟨⟨by simp [Digit], by simp, by simp, by simp, by simp [U.names]⟩, by simp [Tok.Whole]⟩
  · exact ⟨⟨by simp [Digit], by simp [Digit], by simp, by simp, by simp [U.names]⟩, by simp [Tok.Whole, U.size]⟩

/-- The default of `reconnectDuration` is saved as `5m0s`, 1.5 s as `1.5s`, the smallest duration as
`-2562047h47m16.854775808s`. -/
theorem example_written : written 300000000000 = [53, 109, 48, 115] ∧ written 1500000000 = [49, 46, 53, 115] ∧
    written (-9223372036854775808) = [45, 50, 53, 54, 50, 48, 52, 55, 104, 52, 55, 109, 49, 54, 46, 56, 53, 52, 55, 55,
      53, 56, 48, 56, 115] := by
  refine ⟨by decide +kernel, by decide +kernel, ?_⟩
  simp [written, print, printAbs, fmtFrac, fracLoop, fmtInt]
  decide +kernel

/-- A text that ends with the unit `n` after a number whose part before the dot is `i`. -/
def WithUnit (i : Nat) (n s : Bytes) : Prop :=
  ∃ ds fs : Bytes, (∀ b ∈ ds, Digit b) ∧ num ds = i ∧ (fs = [] ∨ ∃ gs, fs = 46 :: gs ∧ ∀ b ∈ gs, Digit b) ∧ s = ds ++ fs ++ n

theorem withUnit_print (prec v : Nat) (n : Bytes) : WithUnit (v / 10 ^ prec) n (fmtInt (fmtFrac prec v n).2 (fmtFrac prec v n).1) := by
  obtain ⟨dot, fs, f1, f2, f3, f4, f5⟩ := fmtFrac_eq prec v n
  rw [f5]
  obtain ⟨ds, d1, d2, d3, d4⟩ := fmtInt_eq (v / 10 ^ prec) ((if dot then 46 :: fs else []) ++ n)
  refine ⟨ds, if dot then 46 :: fs else [], d1, d2, ?_, ?_⟩
  · cases dot
    · exact .inl rfl
    · exact .inr ⟨fs, rfl, f1⟩
  · dsimp only; rw [d4, List.append_assoc]

/-- Short durations are written in the largest unit of which they are at least one: nanoseconds below a microsecond, microseconds
below a millisecond, milliseconds below a second. -/
theorem unit_choice (u : Nat) :
    (0 < u → u < 1000 → WithUnit u [110, 115] (printAbs u)) ∧
    (1000 ≤ u → u < 1000000 → WithUnit (u / 1000) [194, 181, 115] (printAbs u)) ∧
    (1000000 ≤ u → u < 1000000000 → WithUnit (u / 1000000) [109, 115] (printAbs u)) := by
  unfold printAbs
  refine ⟨?_, ?_, ?_⟩
  · intro h1 h2
    rw [if_neg (by omega), if_pos h2]
    have := withUnit_print 0 u [110, 115]
    simpa using this
  · intro h1 h2
    rw [if_neg (by omega), if_neg (by omega), if_pos h2]
    exact withUnit_print 3 u _
  · intro h1 h2
    rw [if_neg (by omega), if_neg (by omega), if_neg (by omega), if_pos h2]
    exact withUnit_print 6 u _

example : written 1000 = [49, 194, 181, 115] ∧ written 999 = [57, 57, 57, 110, 115] ∧ written 1000000 = [49, 109, 115] ∧
    written 1000000000 = [49, 115] := by decide +kernel

end Verif.Config.Duration
