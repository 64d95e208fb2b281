import Verif.Config.Services
set_option linter.unusedSimpArgs false
set_option linter.unusedVariables false
/-!
# C98, C99: the values of repeated command line options

Options that may be given several times - the server's ids, secrets, port ranges and host patterns, the client's remotes, locals,
host prefixes, ports and switches - take their value with `fmt.Sscanf(value, "%v", ..)` (libcs/config/position.go:45,
libcs/config/slice.go:58), whose error is thrown away. This file models what `Sscanf` does with one `%v` for the three kinds of value
in use (strings, 16-bit unsigned numbers, switches); a text is a list of Unicode code points.

Not modelled: durations (`time.ParseDuration`, whose errors are reported), and texts that are not valid UTF-8.
-/
namespace Verif.Config.OptValues
open Verif

abbrev Text := List Nat

/-- `fmt`'s `isSpace`. -/
def isSpace (r : Nat) : Bool :=
  (9 ≤ r && r ≤ 13) || r == 32 || r == 0x85 || r == 0xA0 || r == 0x1680 || (0x2000 ≤ r && r ≤ 0x200A) ||
  r == 0x2028 || r == 0x2029 || r == 0x202F || r == 0x205F || r == 0x3000

/-- `fmt`'s `SkipSpace` under `Sscanf`: white space is skipped, but a line end is an error (`none`). -/
def skipSpace : Text → Option Text
  | [] => some []
  | r :: t => if r = 10 then none else if isSpace r then skipSpace t else some (r :: t)

/-- `convertString` for `%v`: the next word; `none` is an error. -/
def scanString (t : Text) : Option Text :=
  match skipSpace t with
  | none => none
  | some [] => none
  | some (c :: t) => some ((c :: t).takeWhile (fun r => !isSpace r))

def isDec (r : Nat) : Bool := (48 ≤ r && r ≤ 57) || r == 95
def isBin (r : Nat) : Bool := (48 ≤ r && r ≤ 49) || r == 95
def isOct (r : Nat) : Bool := (48 ≤ r && r ≤ 55) || r == 95
def isHex (r : Nat) : Bool := (48 ≤ r && r ≤ 57) || (97 ≤ r && r ≤ 102) || (65 ≤ r && r ≤ 70) || r == 95

/-- `scanBasePrefix` and `scanNumber`: the token of a number (95 is the underscore). -/
def scanToken : Text → Option Text
  | [] => none
  | c :: t =>
    if c = 48 then
      match t with
      | [] => some [48]
      | d :: t' =>
        if d = 98 ∨ d = 66 then some (48 :: d :: t'.takeWhile isBin)
        else if d = 111 ∨ d = 79 then some (48 :: d :: t'.takeWhile isOct)
        else if d = 120 ∨ d = 88 then some (48 :: d :: t'.takeWhile isHex)
        else some (48 :: (d :: t').takeWhile isOct)
    else if isDec c then some (c :: t.takeWhile isDec) else none

/-- The value of a digit. -/
def digitVal (r : Nat) : Option Nat :=
  if 48 ≤ r ∧ r ≤ 57 then some (r - 48)
  else if 97 ≤ r ∧ r ≤ 122 then some (r - 97 + 10)
  else if 65 ≤ r ∧ r ≤ 90 then some (r - 65 + 10)
  else none

/-- The loop of `strconv.ParseUint`; underscores are skipped. -/
def parseDigits (base : Nat) : Nat → Text → Option Nat
  | acc, [] => some acc
  | acc, c :: cs =>
    if c = 95 then parseDigits base acc cs
    else match digitVal c with
      | none => none
      | some d => if d < base then parseDigits base (acc * base + d) cs else none

/-- The loop of `strconv`'s `underscoreOK`: `saw` is the class of the last character (`some true` a digit, `some false` an
underscore). -/
def usLoop (hex : Bool) : Option Bool → Text → Bool
  | saw, [] => saw != some false
  | saw, c :: cs =>
    if (48 ≤ c && c ≤ 57) || (hex && ((97 ≤ c && c ≤ 102) || (65 ≤ c && c ≤ 70))) then usLoop hex (some true) cs
    else if c = 95 then (if saw = some true then usLoop hex (some false) cs else false)
    else if saw = some false then false
    else usLoop hex none cs

/-- `strconv`'s `underscoreOK` (the token has no sign). -/
def underscoreOK : Text → Bool
  | 48 :: c :: t =>
    if c = 98 ∨ c = 66 ∨ c = 111 ∨ c = 79 ∨ c = 120 ∨ c = 88 then usLoop (decide (c = 120 ∨ c = 88)) (some true) t
    else usLoop false none (48 :: c :: t)
  | t => usLoop false none t

/-- Base and digits of a token in `strconv.ParseUint(tok, 0, 64)`. -/
def baseOf : Text → Nat × Text
  | c :: t =>
    if c = 48 then
      match t with
      | d :: e :: t' =>
        if d = 98 ∨ d = 66 then (2, e :: t')
        else if d = 111 ∨ d = 79 then (8, e :: t')
        else if d = 120 ∨ d = 88 then (16, e :: t')
        else (8, d :: e :: t')
      | t => (8, t)
    else (10, c :: t)
  | [] => (10, [])

/-- `strconv.ParseUint(tok, 0, 64)`; values of more than 64 bits are refused by the caller anyway. -/
def parseUint (tok : Text) : Option Nat :=
  match parseDigits (baseOf tok).1 0 (baseOf tok).2 with
  | none => none
  | some n => if tok.contains 95 && !underscoreOK tok then none else some n

/-- `scanUint` for `%v` and 16 bits; `none` is an error. -/
def scanUint (t : Text) : Option Nat :=
  match skipSpace t with
  | none => none
  | some t =>
    match scanToken t with
    | none => none
    | some tok =>
      match parseUint tok with
      | none => none
      | some n => if n < 65536 then some n else none

/-- `accept`: is the next character one of these two? -/
def acc (a b : Nat) : Text → Option Text
  | c :: t => if c = a ∨ c = b then some t else none
  | [] => none

/-- `scanBool`; `none` is an error. -/
def scanBool (t : Text) : Option Bool :=
  match skipSpace t with
  | none => none
  | some [] => none
  | some (c :: t) =>
    if c = 48 then some false
    else if c = 49 then some true
    else if c = 116 ∨ c = 84 then
      match acc 114 82 t with
      | none => some true
      | some t => if (((acc 117 85 t).bind (acc 101 69))).isSome then some true else none
    else if c = 102 ∨ c = 70 then
      match acc 97 65 t with
      | none => some false
      | some t => if ((((acc 108 76 t).bind (acc 115 83)).bind (acc 101 69))).isSome then some false else none
    else some false

/-- The kinds of value in use (libcs/client/config.go:46-63, libcs/server/config.go:49-82). -/
inductive Kind where
  | word | port | switch
deriving DecidableEq, Repr

inductive Val where
  | word (t : Text) | port (n : Nat) | switch (b : Bool)
deriving DecidableEq, Repr

/-- libcs/config/position.go:36-52 and libcs/config/slice.go:42-61 `Set`: a fresh zero value is filled by `Sscanf`, whose error is not
looked at, and appended. The result is `none` if the option is refused. (Simplification: fewer than 2^32 options.) -/
def set : Kind → Text → Option Val
  | .word, t => some (.word ((scanString t).getD []))
  | .port, t => some (.port ((scanUint t).getD 0))
  | .switch, t => some (.switch ((scanBool t).getD false))

/-! ## Specification -/

/-- A number written in base `b`, without leading zeros: the values of the digits. -/
def digs (b : Nat) (hb : 2 ≤ b) (n : Nat) : List Nat :=
  if h : n < b then [n] else digs b hb (n / b) ++ [n % b]
termination_by n
decreasing_by
  have : 0 < n := by omega
  exact Nat.div_lt_self this (by omega)

/-- The decimal text of a number. -/
def dec (n : Nat) : Text := (digs 10 (by omega) n).map (· + 48)

/-- The octal text of a number. -/
def oct (n : Nat) : Text := (digs 8 (by omega) n).map (· + 48)

/-! ## Words -/

theorem skip_nonspace {c : Nat} {t : Text} (h : isSpace c = false) : skipSpace (c :: t) = some (c :: t) := by
  have : c ≠ 10 := by rintro rfl; simp [isSpace] at h
  simp [skipSpace, this, h]

/-- **C99: a text without white space is taken as it is.** -/
theorem word_exact (t : Text) (h0 : t ≠ []) (h : ∀ r ∈ t, isSpace r = false) : set .word t = some (.word t) := by
  cases t with
  | nil => exact absurd rfl h0
  | cons c t =>
    simp only [set, scanString, skip_nonspace (h c (by simp)), Option.getD_some]
    congr 2
    have : ∀ w : Text, (∀ r ∈ w, isSpace r = false) → w.takeWhile (fun r => !isSpace r) = w := by
      intro w hw
      induction w with
      | nil => rfl
      | cons a w ih => simp [hw a (by simp), ih (fun r hr => hw r (by simp [hr]))]
    exact this (c :: t) h

/-- **C98 is false for texts with white space: everything after the first word is dropped.** -/
theorem word_cut (w rest : Text) (sp : Nat) (h0 : w ≠ []) (h : ∀ r ∈ w, isSpace r = false) (hs : isSpace sp = true) :
    set .word (w ++ sp :: rest) = some (.word w) := by
  cases w with
  | nil => exact absurd rfl h0
  | cons c w =>
    simp only [set, scanString, List.cons_append, skip_nonspace (h c (by simp)), Option.getD_some]
    congr 2
    have : ∀ w : Text, (∀ r ∈ w, isSpace r = false) → (w ++ sp :: rest).takeWhile (fun r => !isSpace r) = w := by
      intro w hw
      induction w with
      | nil => simp [hs]
      | cons a w ih => simp [hw a (by simp), ih (fun r hr => hw r (by simp [hr]))]
    exact this (c :: w) h

/-- **Exactly the texts without white space are taken whole.**
C98. Missing from the claim: that every other text is refused, which is false (`nothing_refused`, `word_cut`). -/
theorem word_whole_iff_partial (t : Text) : set .word t = some (.word t) ↔ ∀ r ∈ t, isSpace r = false := by
  constructor
  · intro h r hr
    simp only [set, Option.some.injEq, Val.word.injEq] at h
    rw [← h] at hr
    simp only [scanString] at hr
    split at hr
    · simp at hr
    · simp at hr
    · simp only [Option.getD_some] at hr
      rename_i c t' _
      have h2 : ((c :: t').takeWhile (fun r => !isSpace r)).all (fun r => !isSpace r) = true := List.all_takeWhile
      rw [List.all_eq_true] at h2
      simpa using h2 r hr
  · intro h
    cases t with
    | nil => rfl
    | cons c t => exact word_exact _ (by simp) h

/-- **Two different secrets (ids, patterns, ...) that begin with the same word are the same option.** -/
theorem secrets_confused (w r1 r2 : Text) (h0 : w ≠ []) (h : ∀ r ∈ w, isSpace r = false) :
    set .word (w ++ 32 :: r1) = set .word (w ++ 32 :: r2) ∧ set .word (w ++ 32 :: r1) = set .word w := by
  rw [word_cut w r1 32 h0 h rfl, word_cut w r2 32 h0 h rfl, word_exact w h0 h]
  exact ⟨rfl, rfl⟩

theorem skip_leading (l t : Text) (h : ∀ r ∈ l, isSpace r = true ∧ r ≠ 10) : skipSpace (l ++ t) = skipSpace t := by
  induction l with
  | nil => rfl
  | cons c l ih =>
    have := h c (by simp)
    simp [skipSpace, this.1, this.2, ih (fun r hr => h r (by simp [hr]))]

/-- White space in front is dropped, for every kind of value. -/
theorem leading_space_dropped (k : Kind) (l t : Text) (h : ∀ r ∈ l, isSpace r = true ∧ r ≠ 10) : set k (l ++ t) = set k t := by
  have := skip_leading l t h
  cases k <;> simp only [set, scanString, scanUint, scanBool, this]

/-- **A line end in front makes the value empty** (zero, off), whatever follows. -/
theorem line_end_empties (k : Kind) (l t : Text) (h : ∀ r ∈ l, isSpace r = true ∧ r ≠ 10) :
    set k (l ++ 10 :: t) = some (match k with | .word => .word [] | .port => .port 0 | .switch => .switch false) := by
  have : skipSpace (l ++ 10 :: t) = none := by rw [skip_leading l _ h]; simp [skipSpace]
  cases k <;> simp [set, scanString, scanUint, scanBool, this]

/-! ## Numbers -/

theorem digs_lt (b : Nat) (hb : 2 ≤ b) (n : Nat) : ∀ d ∈ digs b hb n, d < b := by
  induction n using Nat.strongRecOn with
  | ind n ih =>
    intro d hd
    rw [digs] at hd
    split at hd
    · simp at hd; omega
    · rename_i h
      rw [List.mem_append] at hd
      rcases hd with hd | hd
      · exact ih _ (Nat.div_lt_self (by omega) (by omega)) d hd
      · simp at hd; subst hd; exact Nat.mod_lt _ (by omega)

theorem digs_ne_nil (b : Nat) (hb : 2 ≤ b) (n : Nat) : digs b hb n ≠ [] := by
  rw [digs]; split <;> simp

theorem digs_head (b : Nat) (hb : 2 ≤ b) (n : Nat) (hn : 0 < n) : ∀ d, (digs b hb n).head? = some d → 0 < d := by
  induction n using Nat.strongRecOn with
  | ind n ih =>
    intro d hd
    rw [digs] at hd
    split at hd
    · simp at hd; omega
    · rename_i h
      rw [List.head?_append] at hd
      have hne := digs_ne_nil b hb (n / b)
      cases hq : (digs b hb (n / b)).head? with
      | none => rw [List.head?_eq_none_iff] at hq; exact absurd hq hne
      | some x =>
        rw [hq] at hd
        simp at hd
        subst hd
        exact ih _ (Nat.div_lt_self hn (by omega)) (Nat.div_pos (by omega) (by omega)) _ hq

theorem parseDigits_append (base : Nat) : ∀ (x y : Text) (a : Nat),
    parseDigits base a (x ++ y) = (parseDigits base a x).bind (fun a' => parseDigits base a' y) := by
  intro x
  induction x with
  | nil => intro y a; rfl
  | cons c x ih =>
    intro y a
    simp only [List.cons_append, parseDigits]
    split
    · exact ih y a
    · split
      · rfl
      · split
        · exact ih y _
        · rfl

theorem parseDigits_one {base a d : Nat} (hd : d < 10) (hb : d < base) : parseDigits base a [d + 48] = some (a * base + d) := by
  have h1 : d + 48 ≠ 95 := by omega
  have h2 : digitVal (d + 48) = some d := by
    simp only [digitVal]
    rw [if_pos (by omega)]
    simp
  simp [parseDigits, h1, h2, hb]

/-- Reading back a number written in base `b`. -/
theorem parse_digs (b : Nat) (hb : 2 ≤ b) (hb10 : b ≤ 10) (n : Nat) : parseDigits b 0 ((digs b hb n).map (· + 48)) = some n := by
  induction n using Nat.strongRecOn with
  | ind n ih =>
    rw [digs]
    split
    · rename_i h
      simp only [List.map_cons, List.map_nil]
      rw [parseDigits_one (by omega) h]; simp
    · rename_i h
      rw [List.map_append, parseDigits_append, ih _ (Nat.div_lt_self (by omega) (by omega))]
      simp only [Option.bind_some, List.map_cons, List.map_nil]
      have hm : n % b < b := Nat.mod_lt _ (by omega)
      rw [parseDigits_one (by omega) hm]
      congr 1
      rw [Nat.mul_comm]; exact Nat.div_add_mod n b

theorem isSpace_digit {c : Nat} (h : 48 ≤ c ∧ c ≤ 57) : isSpace c = false := by
  have : c = 48 ∨ c = 49 ∨ c = 50 ∨ c = 51 ∨ c = 52 ∨ c = 53 ∨ c = 54 ∨ c = 55 ∨ c = 56 ∨ c = 57 := by omega
  rcases this with h | h | h | h | h | h | h | h | h | h <;> subst h <;> rfl

theorem take_all (p : Nat → Bool) : ∀ (x y : Text), (∀ r ∈ x, p r = true) → (∀ c, y.head? = some c → p c = false) →
    (x ++ y).takeWhile p = x := by
  intro x
  induction x with
  | nil =>
    intro y _ hy
    cases y with
    | nil => rfl
    | cons c y => simp [hy c rfl]
  | cons a x ih =>
    intro y hx hy
    simp [hx a (by simp), ih y (fun r hr => hx r (by simp [hr])) hy]

theorem no_us (l : List Nat) (h : ∀ d ∈ l, d < 10) : (l.map (· + 48)).contains 95 = false := by
  rw [Bool.eq_false_iff]
  intro hx
  simp only [List.contains_iff_mem, List.mem_map] at hx
  obtain ⟨d, hd, he⟩ := hx
  have := h d hd
  omega

/-- What a positive decimal number followed by something else gives. -/
theorem scanUint_dec (n : Nat) (hn : 0 < n) (rest : Text) (hr : ∀ c, rest.head? = some c → isDec c = false) :
    scanUint (dec n ++ rest) = if n < 65536 then some n else none := by
  have hlt := digs_lt 10 (by omega) n
  have hne := digs_ne_nil 10 (by omega) n
  have hhd := digs_head 10 (by omega) n hn
  have hpd := parse_digs 10 (by omega) (by omega) n
  have hus := no_us _ hlt
  simp only [dec]
  generalize hD : digs 10 (by omega : 2 ≤ 10) n = D at *
  cases D with
  | nil => exact absurd rfl hne
  | cons d D =>
    have hd0 : 0 < d := hhd d rfl
    have hd10 : d < 10 := hlt d (by simp)
    have hsp := skip_nonspace (c := d + 48) (t := D.map (· + 48) ++ rest) (isSpace_digit (by omega))
    have htok : scanToken ((d + 48) :: (D.map (· + 48) ++ rest)) = some ((d + 48) :: D.map (· + 48)) := by
      simp only [scanToken]
      rw [if_neg (by omega)]
      have h1 : isDec (d + 48) = true := by simp [isDec]; omega
      rw [if_pos h1]
      rw [take_all isDec _ _ _ hr]
      intro r hr
      simp only [List.mem_map] at hr
      obtain ⟨e, he, rfl⟩ := hr
      have := hlt e (by simp [he])
      simp [isDec]; omega
    have hbase : baseOf ((d + 48) :: D.map (· + 48)) = (10, (d + 48) :: D.map (· + 48)) := by
      simp only [baseOf]; rw [if_neg (by omega)]
    simp only [List.map_cons] at hpd hus ⊢
    simp only [scanUint, List.cons_append, hsp, htok, parseUint, hbase, hpd, hus, Bool.false_and, if_neg Bool.false_ne_true]

/-- **C99: a port number in decimal is taken as it is.** -/
theorem port_exact (n : Nat) (h : n < 65536) : set .port (dec n) = some (.port n) := by
  by_cases h0 : n = 0
  · subst h0
    have : dec 0 = [48] := by simp only [dec]; rw [digs]; simp
    rw [this]; decide
  · have := scanUint_dec n (by omega) [] (by simp)
    rw [List.append_nil] at this
    simp only [set, this, if_pos h, Option.getD_some]

/-- **C98 is false for numbers that are too large: they are taken for zero.** -/
theorem port_too_large (n : Nat) (h : 65536 ≤ n) : set .port (dec n) = some (.port 0) := by
  have := scanUint_dec n (by omega) [] (by simp)
  rw [List.append_nil] at this
  simp only [set, this, if_neg (by omega : ¬ n < 65536), Option.getD_none]

/-- **C98 is false for numbers followed by something else: the rest is dropped.** -/
theorem port_trailing (n : Nat) (h0 : 0 < n) (h : n < 65536) (c : Nat) (rest : Text) (hc : isDec c = false) :
    set .port (dec n ++ c :: rest) = some (.port n) := by
  have := scanUint_dec n h0 (c :: rest) (by intro x hx; simp at hx; subst hx; exact hc)
  simp only [set, this, if_pos h, Option.getD_some]

/-- **C98 is false for texts that are no number: they are taken for zero.** -/
theorem port_no_number (c : Nat) (rest : Text) (hs : isSpace c = false) (hc : isDec c = false) :
    set .port (c :: rest) = some (.port 0) := by
  have h48 : c ≠ 48 := by rintro rfl; simp [isDec] at hc
  simp [set, scanUint, skip_nonspace hs, scanToken, h48, hc]

/-- **A number with a leading zero is taken for octal.** -/
theorem port_leading_zero (n : Nat) (hn : 0 < n) (h : n < 65536) : set .port (48 :: oct n) = some (.port n) := by
  have hlt := digs_lt 8 (by omega) n
  have hne := digs_ne_nil 8 (by omega) n
  have hpd := parse_digs 8 (by omega) (by omega) n
  have hus := no_us _ (fun d hd => Nat.lt_of_lt_of_le (hlt d hd) (by omega))
  simp only [oct]
  generalize hD : digs 8 (by omega : 2 ≤ 8) n = D at *
  cases D with
  | nil => exact absurd rfl hne
  | cons d D =>
    have hd8 : d < 8 := hlt d (by simp)
    have hsp := skip_nonspace (c := 48) (t := (d :: D).map (· + 48)) rfl
    have htok : scanToken (48 :: (d :: D).map (· + 48)) = some (48 :: (d :: D).map (· + 48)) := by
      simp only [scanToken, List.map_cons]
      rw [if_pos trivial, if_neg (by omega), if_neg (by omega), if_neg (by omega)]
      have := take_all isOct ((d :: D).map (· + 48)) [] (by
        intro r hr
        simp only [List.mem_map] at hr
        obtain ⟨e, he, rfl⟩ := hr
        have := hlt e he
        simp [isOct]; omega) (by simp)
      rw [List.append_nil] at this
      simp only [List.map_cons] at this
      rw [this]
    have hbase : baseOf (48 :: (d :: D).map (· + 48)) = (8, (d :: D).map (· + 48)) := by
      simp only [baseOf, List.map_cons]
      rw [if_pos trivial]
      cases D with
      | nil => rfl
      | cons e D => simp only [List.map_cons]; rw [if_neg (by omega), if_neg (by omega), if_neg (by omega)]
    have hus' : (48 :: (d :: D).map (· + 48)).contains 95 = false := by
      rw [List.contains_cons, hus]; rfl
    simp only [set, scanUint, hsp, htok, parseUint, hbase, hpd, hus', Bool.false_and, if_neg Bool.false_ne_true, if_pos h, Option.getD_some]

/-! ## Switches -/

/-- **C99: a switch given as `true`, `false`, `1` or `0` (any case) is taken as it is.** -/
theorem switch_exact :
    set .switch [49] = some (.switch true) ∧ set .switch [48] = some (.switch false) ∧
    (∀ a b c d, (a = 116 ∨ a = 84) → (b = 114 ∨ b = 82) → (c = 117 ∨ c = 85) → (d = 101 ∨ d = 69) →
      set .switch [a, b, c, d] = some (.switch true)) ∧
    (∀ a b c d e, (a = 102 ∨ a = 70) → (b = 97 ∨ b = 65) → (c = 108 ∨ c = 76) → (d = 115 ∨ d = 83) → (e = 101 ∨ e = 69) →
      set .switch [a, b, c, d, e] = some (.switch false)) := by
  refine ⟨by decide, by decide, ?_, ?_⟩
  · rintro a b c d (rfl | rfl) (rfl | rfl) (rfl | rfl) (rfl | rfl) <;> decide
  · rintro a b c d e (rfl | rfl) (rfl | rfl) (rfl | rfl) (rfl | rfl) (rfl | rfl) <;> decide

/-- **C98 is false for every other text**: what does not begin with `1` or `t` switches off, whatever it says. -/
theorem switch_other (c : Nat) (rest : Text) (hs : isSpace c = false) (h1 : c ≠ 49) (h2 : c ≠ 116) (h3 : c ≠ 84) :
    set .switch (c :: rest) = some (.switch false) := by
  simp only [set, scanBool, skip_nonspace hs, h1, h2, h3, if_false, or_self]
  split
  · rfl
  · split
    · split
      · rfl
      · split <;> rfl
    · rfl

/-- **C98: no text is ever refused**, for any kind of value. -/
theorem nothing_refused (k : Kind) (t : Text) : (set k t).isSome = true := by cases k <;> rfl

/-- Whatever the text, a port is a port. -/
theorem port_in_range (t : Text) (n : Nat) (h : set .port t = some (.port n)) : n < 65536 := by
  simp only [set, Option.some.injEq, Val.port.injEq] at h
  subst h
  simp only [scanUint]
  split
  · simp
  · split
    · simp
    · split
      · simp
      · split
        · simpa
        · simp

/-! ## What a wrong port leads to -/

/-- **A TCP service whose port number was mistyped beyond 65535 is announced with a random port**, without any error
(libcs/client/client.go:821-874). -/
theorem mistyped_port_is_random (id : Bytes) (used : Bool) (s : Services.Svc) (u : Services.URL) (n : Nat) (h : 65536 ≤ n)
    (hp : set .port (dec n) = some (.port s.port)) (hu : s.url = some u) (ht : u.scheme = .tcp) (hr : s.rand = none)
    (hl : Services.portOf u.host ≠ []) (hpre : s.pre = []) :
    ∃ s' used', Services.finish id used s = .ok (s', used') ∧ s'.port = 0 ∧ s'.rand = some true := by
  rw [port_too_large n h] at hp
  simp only [Option.some.injEq, Val.port.injEq] at hp
  obtain ⟨url, pre, port, rand, timeout, ul⟩ := s
  simp only at *
  subst hp hu hr hpre
  obtain ⟨sc, host⟩ := u
  simp only at ht hl
  subst ht
  have e : ∃ q : Services.Svc × Bool, Services.finish id used ⟨some ⟨.tcp, host⟩, [], 0, none, timeout, ul⟩ = .ok q ∧
      q.1.port = 0 ∧ q.1.rand = some true := by
    simp [Services.finish, hl]
  obtain ⟨q, h1, h2⟩ := e
  exact ⟨q.1, q.2, h1, h2⟩

/-! ### Witnesses -/

/-- `p w` -/
example : set .word [112, 32, 119] = some (.word [112]) := by decide
/-- `8080` -/
example : set .port [56, 48, 56, 48] = some (.port 8080) := by decide
/-- `70000` -/
example : set .port [55, 48, 48, 48, 48] = some (.port 0) := by decide
/-- `0443` is 291, `08080` is 0, `0x1F` is 31, `1_000` is 1000, `1__0` is 0, `80-90` is 80 -/
example : set .port [48, 52, 52, 51] = some (.port 291) ∧ set .port [48, 56, 48, 56, 48] = some (.port 0) ∧
    set .port [48, 120, 49, 70] = some (.port 31) ∧ set .port [49, 95, 48, 48, 48] = some (.port 1000) ∧
    set .port [49, 95, 95, 48] = some (.port 0) ∧ set .port [56, 48, 45, 57, 48] = some (.port 80) := by decide
/-- `yes` and `on` switch off. -/
example : set .switch [121, 101, 115] = some (.switch false) ∧ set .switch [111, 110] = some (.switch false) := by decide
example : Services.portOf (ascii "127.0.0.1:22") ≠ [] := by decide +kernel

end Verif.Config.OptValues
