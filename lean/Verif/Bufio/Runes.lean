import Verif.Bufio.Scanner
set_option linter.unusedSimpArgs false
set_option linter.unusedVariables false
/-!
# C145 (runes): `ScanRunes` (libcs/bufio/scan.go:296-334)

`utf8.DecodeRune` and `utf8.FullRune` are Go's standard library, not in /repo; they are modelled from the published source
(unicode/utf8/utf8.go) and shown to agree with the definition of UTF-8 (`enc`).
-/
namespace Verif.Bufio.Runes
open Verif Verif.Bufio Verif.Bufio.Scanner

/-- unicode/utf8 `first` and `acceptRanges`: length of a sequence that begins with `b`, and the range of its second byte.
Length 1: ASCII or not a first byte. -/
def lead (b : Nat) : Nat × Nat × Nat :=
  if b < 0xC2 then (1, 0, 0)
  else if b < 0xE0 then (2, 0x80, 0xBF)
  else if b = 0xE0 then (3, 0xA0, 0xBF)
  else if b = 0xED then (3, 0x80, 0x9F)
  else if b < 0xF0 then (3, 0x80, 0xBF)
  else if b = 0xF0 then (4, 0x90, 0xBF)
  else if b < 0xF4 then (4, 0x80, 0xBF)
  else if b = 0xF4 then (4, 0x80, 0x8F)
  else (1, 0, 0)

/-- unicode/utf8 `locb`, `hicb`: a continuation byte. -/
def cont (b : UInt8) : Bool := 0x80 ≤ b.toNat && b.toNat ≤ 0xBF

/-- unicode/utf8 `DecodeRune`: the test of the second byte. -/
def second (b0 b1 : UInt8) : Bool := (lead b0.toNat).2.1 ≤ b1.toNat && b1.toNat ≤ (lead b0.toNat).2.2

/-- unicode/utf8 `DecodeRune`, two bytes. -/
def decode2 (b0 : UInt8) : Bytes → Nat × Nat
  | b1 :: _ => if second b0 b1 then ((b0.toNat - 0xC0) * 64 + (b1.toNat - 0x80), 2) else (0xFFFD, 1)
  | _ => (0xFFFD, 1)

/-- unicode/utf8 `DecodeRune`, three bytes. -/
def decode3 (b0 : UInt8) : Bytes → Nat × Nat
  | b1 :: b2 :: _ =>
    if second b0 b1 && cont b2 then
      ((b0.toNat - 0xE0) * 4096 + (b1.toNat - 0x80) * 64 + (b2.toNat - 0x80), 3) else (0xFFFD, 1)
  | _ => (0xFFFD, 1)

/-- unicode/utf8 `DecodeRune`, four bytes. -/
def decode4 (b0 : UInt8) : Bytes → Nat × Nat
  | b1 :: b2 :: b3 :: _ =>
    if second b0 b1 && cont b2 && cont b3 then
      ((b0.toNat - 0xF0) * 262144 + (b1.toNat - 0x80) * 4096 + (b2.toNat - 0x80) * 64 + (b3.toNat - 0x80), 4)
    else (0xFFFD, 1)
  | _ => (0xFFFD, 1)

/-- unicode/utf8 `DecodeRune`: the rune and its width; (0xFFFD, 1) for an error. -/
def decode : Bytes → Nat × Nat
  | [] => (0xFFFD, 0)
  | b0 :: t =>
    if b0.toNat < 0x80 then (b0.toNat, 1)
    else if (lead b0.toNat).1 = 2 then decode2 b0 t
    else if (lead b0.toNat).1 = 3 then decode3 b0 t
    else if (lead b0.toNat).1 = 4 then decode4 b0 t
    else (0xFFFD, 1)

/-- unicode/utf8 `FullRune`: whether the bytes begin with a whole rune or an error that more bytes cannot mend. -/
def fullRune : Bytes → Bool
  | [] => false
  | [b0] => (lead b0.toNat).1 ≤ 1
  | [b0, b1] => (lead b0.toNat).1 ≤ 2 || !second b0 b1
  | [b0, b1, b2] => (lead b0.toNat).1 ≤ 3 || !second b0 b1 || !cont b2
  | _ => true

/-- libcs/bufio/scan.go:304-333 `ScanRunes`. -/
def scanRunes : Split := fun data atEOF =>
  if atEOF = true ∧ data.length = 0 then .ok 0 none
  else match data with
    | [] => .ok 0 none   -- not reached: `Scan` does not call it so (the Go code would panic)
    | b0 :: _ =>
      if b0.toNat < 0x80 then .ok 1 (some (data.take 1))
      else if (decode data).2 > 1 then .ok (decode data).2 (some (data.take (decode data).2))
      else if atEOF = false ∧ fullRune data = false then .ok 0 none
      else .ok 1 (some [0xEF, 0xBF, 0xBD])

/-! ## Specification -/

/-- The Unicode scalar values. -/
def Scalar (r : Nat) : Prop := r < 0xD800 ∨ (0xE000 ≤ r ∧ r < 0x110000)

/-- UTF-8 (RFC 3629). -/
def enc (r : Nat) : Bytes :=
  if r < 0x80 then [UInt8.ofNat r]
  else if r < 0x800 then [UInt8.ofNat (0xC0 + r / 64), UInt8.ofNat (0x80 + r % 64)]
  else if r < 0x10000 then
    [UInt8.ofNat (0xE0 + r / 4096), UInt8.ofNat (0x80 + r / 64 % 64), UInt8.ofNat (0x80 + r % 64)]
  else [UInt8.ofNat (0xF0 + r / 262144), UInt8.ofNat (0x80 + r / 4096 % 64), UInt8.ofNat (0x80 + r / 64 % 64),
    UInt8.ofNat (0x80 + r % 64)]

/-- What `for _, r := range` over a text gives (Go specification): the scalar values whose encodings stand there, and U+FFFD
for each byte with which no encoding begins. -/
inductive Ranged : Bytes → List Nat → Prop
  | nil : Ranged [] []
  | rune (r : Nat) (rest : Bytes) (rs : List Nat) : Scalar r → Ranged rest rs → Ranged (enc r ++ rest) (r :: rs)
  | bad (b : UInt8) (rest : Bytes) (rs : List Nat) : (∀ r x, Scalar r → b :: rest ≠ enc r ++ x) → Ranged rest rs →
      Ranged (b :: rest) (0xFFFD :: rs)

/-! ## UTF-8 -/

theorem ofNat_toNat {n : Nat} (h : n < 256) : (UInt8.ofNat n).toNat = n := by
  simp [UInt8.toNat_ofNat']; omega

/-- Decoding inverts encoding, whatever follows. -/
theorem decode_enc (r : Nat) (h : Scalar r) (x : Bytes) : decode (enc r ++ x) = (r, (enc r).length) := by
  unfold Scalar at h
  unfold enc
  by_cases h1 : r < 0x80
  · rw [if_pos h1]
    simp only [List.cons_append, List.nil_append, decode, List.length_cons, List.length_nil]
    rw [ofNat_toNat (by omega), if_pos h1]
  rw [if_neg h1]
  by_cases h2 : r < 0x800
  · rw [if_pos h2]
    simp only [List.cons_append, List.nil_append, decode, List.length_cons, List.length_nil]
    rw [ofNat_toNat (by omega), if_neg (by omega)]
    have hl : lead (0xC0 + r / 64) = (2, 0x80, 0xBF) := by
      unfold lead; rw [if_neg (by omega), if_pos (by omega)]
    have hs : second (UInt8.ofNat (0xC0 + r / 64)) (UInt8.ofNat (0x80 + r % 64)) = true := by
      unfold second; rw [ofNat_toNat (by omega), ofNat_toNat (by omega), hl]
      simp; omega
    rw [hl, if_pos rfl]
    simp only [decode2]
    rw [hs, ofNat_toNat (by omega), ofNat_toNat (by omega)]
    simp; omega
  rw [if_neg h2]
  by_cases h3 : r < 0x10000
  · rw [if_pos h3]
    simp only [List.cons_append, List.nil_append, decode, List.length_cons, List.length_nil]
    rw [ofNat_toNat (by omega), if_neg (by omega)]
    have hc : cont (UInt8.ofNat (0x80 + r % 64)) = true := by
      unfold cont; rw [ofNat_toNat (by omega)]; simp; omega
    have hl : (lead (0xE0 + r / 4096)).1 = 3 ∧ (lead (0xE0 + r / 4096)).2.1 ≤ 0x80 + r / 64 % 64 ∧
        0x80 + r / 64 % 64 ≤ (lead (0xE0 + r / 4096)).2.2 := by
      unfold lead
      rw [if_neg (by omega), if_neg (by omega)]
      by_cases ha : 0xE0 + r / 4096 = 0xE0
      · rw [if_pos ha]; dsimp only; omega
      · rw [if_neg ha]
        by_cases hb : 0xE0 + r / 4096 = 0xED
        · rw [if_pos hb]; dsimp only; omega
        · rw [if_neg hb, if_pos (by omega)]; dsimp only; omega
    have hs : second (UInt8.ofNat (0xE0 + r / 4096)) (UInt8.ofNat (0x80 + r / 64 % 64)) = true := by
      unfold second; rw [ofNat_toNat (by omega), ofNat_toNat (by omega)]
      simp [hl.2.1, hl.2.2]
    rw [hl.1, if_neg (by decide), if_pos rfl]
    simp only [decode3]
    rw [hs, hc, ofNat_toNat (by omega), ofNat_toNat (by omega), ofNat_toNat (by omega)]
    simp; omega
  rw [if_neg h3]
  simp only [List.cons_append, List.nil_append, decode, List.length_cons, List.length_nil]
  rw [ofNat_toNat (by omega), if_neg (by omega)]
  have hc : cont (UInt8.ofNat (0x80 + r % 64)) = true := by
    unfold cont; rw [ofNat_toNat (by omega)]; simp; omega
  have hc2 : cont (UInt8.ofNat (0x80 + r / 64 % 64)) = true := by
    unfold cont; rw [ofNat_toNat (by omega)]; simp; omega
  have hl : (lead (0xF0 + r / 262144)).1 = 4 ∧ (lead (0xF0 + r / 262144)).2.1 ≤ 0x80 + r / 4096 % 64 ∧
      0x80 + r / 4096 % 64 ≤ (lead (0xF0 + r / 262144)).2.2 := by
    unfold lead
    rw [if_neg (by omega), if_neg (by omega), if_neg (by omega), if_neg (by omega), if_neg (by omega)]
    by_cases ha : 0xF0 + r / 262144 = 0xF0
    · rw [if_pos ha]; dsimp only; omega
    · rw [if_neg ha]
      by_cases hb : 0xF0 + r / 262144 < 0xF4
      · rw [if_pos hb]; dsimp only; omega
      · rw [if_neg hb, if_pos (by omega)]; dsimp only; omega
  have hs : second (UInt8.ofNat (0xF0 + r / 262144)) (UInt8.ofNat (0x80 + r / 4096 % 64)) = true := by
    unfold second; rw [ofNat_toNat (by omega), ofNat_toNat (by omega)]
    simp [hl.2.1, hl.2.2]
  rw [hl.1, if_neg (by decide), if_neg (by decide), if_pos rfl]
  simp only [decode4]
  rw [hs, hc, hc2, ofNat_toNat (by omega), ofNat_toNat (by omega), ofNat_toNat (by omega), ofNat_toNat (by omega)]
  simp; omega

theorem u8_eq {b : UInt8} {n : Nat} (h : b.toNat = n) : b = UInt8.ofNat n := by
  rw [← h, UInt8.ofNat_toNat]

/-- A decoded rune is a scalar value and stands there in its one encoding; everything else has width 1. -/
theorem decode_sound (p : Bytes) (h : (decode p).2 > 1) :
    Scalar (decode p).1 ∧ (enc (decode p).1).length = (decode p).2 ∧ enc (decode p).1 = p.take (decode p).2 := by
  cases p with
  | nil => simp [decode] at h
  | cons b0 t =>
    have hb0 := b0.toNat_lt
    simp only [decode] at h ⊢
    by_cases ha : b0.toNat < 0x80
    · rw [if_pos ha] at h; simp at h
    · rw [if_neg ha] at h ⊢
      have hlead : (lead b0.toNat).1 = 1 ∨
          ((lead b0.toNat).1 = 2 ∧ 0xC2 ≤ b0.toNat ∧ b0.toNat < 0xE0 ∧ (lead b0.toNat).2 = (0x80, 0xBF)) ∨
          ((lead b0.toNat).1 = 3 ∧ 0xE0 ≤ b0.toNat ∧ b0.toNat < 0xF0 ∧ 0x80 ≤ (lead b0.toNat).2.1 ∧
            (lead b0.toNat).2.2 ≤ 0xBF ∧ (b0.toNat = 0xE0 → (lead b0.toNat).2.1 = 0xA0) ∧
            (b0.toNat = 0xED → (lead b0.toNat).2.2 = 0x9F)) ∨
          ((lead b0.toNat).1 = 4 ∧ 0xF0 ≤ b0.toNat ∧ b0.toNat < 0xF5 ∧ 0x80 ≤ (lead b0.toNat).2.1 ∧
            (lead b0.toNat).2.2 ≤ 0xBF ∧ (b0.toNat = 0xF0 → (lead b0.toNat).2.1 = 0x90) ∧
            (b0.toNat = 0xF4 → (lead b0.toNat).2.2 = 0x8F)) := by
        unfold lead
        split
        · simp
        split
        · right; left; refine ⟨rfl, by omega, by omega, rfl⟩
        split
        · right; right; left; refine ⟨rfl, by omega, by omega, by decide, by decide, fun _ => rfl, fun _ => by omega⟩
        split
        · right; right; left; refine ⟨rfl, by omega, by omega, by decide, by decide, fun _ => by omega, fun _ => rfl⟩
        split
        · right; right; left; refine ⟨rfl, by omega, by omega, by decide, by decide, fun _ => by omega, fun _ => by omega⟩
        split
        · right; right; right; refine ⟨rfl, by omega, by omega, by decide, by decide, fun _ => rfl, fun _ => by omega⟩
        split
        · right; right; right; refine ⟨rfl, by omega, by omega, by decide, by decide, fun _ => by omega, fun _ => by omega⟩
        split
        · right; right; right; refine ⟨rfl, by omega, by omega, by decide, by decide, fun _ => by omega, fun _ => rfl⟩
        · simp
      rcases hlead with hl | ⟨hl, l1, l2, l3⟩ | ⟨hl, l1, l2, l3, l4, l5, l6⟩ | ⟨hl, l1, l2, l3, l4, l5, l6⟩
      · rw [hl] at h; simp at h
      · rw [hl] at h ⊢
        simp only [reduceIte] at h ⊢
        match t with
        | [] => simp [decode2, decode3, decode4] at h
        | b1 :: t =>
          simp only [decode2, decode3, decode4] at h ⊢
          by_cases hs : second b0 b1 = true
          · rw [if_pos hs]
            have hs' : 0x80 ≤ b1.toNat ∧ b1.toNat ≤ 0xBF := by
              unfold second at hs; rw [l3] at hs; simpa using hs
            dsimp only
            have e0 : b0 = UInt8.ofNat (0xC0 + ((b0.toNat - 0xC0) * 64 + (b1.toNat - 0x80)) / 64) := u8_eq (by omega)
            have e1 : b1 = UInt8.ofNat (0x80 + ((b0.toNat - 0xC0) * 64 + (b1.toNat - 0x80)) % 64) := u8_eq (by omega)
            refine ⟨Or.inl (by omega), ?_, ?_⟩
            · unfold enc; rw [if_neg (by omega), if_pos (by omega)]; rfl
            · unfold enc; rw [if_neg (by omega), if_pos (by omega), ← e0, ← e1]; rfl
          · rw [if_neg hs] at h; simp at h
      · rw [hl] at h ⊢
        simp only [Nat.reduceEqDiff, reduceIte] at h ⊢
        match t with
        | [] => simp [decode2, decode3, decode4] at h
        | [_] => simp [decode2, decode3, decode4] at h
        | b1 :: b2 :: t =>
          simp only [decode2, decode3, decode4] at h ⊢
          by_cases hs : (second b0 b1 && cont b2) = true
          · rw [if_pos hs]
            simp only [Bool.and_eq_true] at hs
            have hs1 : (lead b0.toNat).2.1 ≤ b1.toNat ∧ b1.toNat ≤ (lead b0.toNat).2.2 := by
              have := hs.1; unfold second at this; simpa using this
            have hs2 : 0x80 ≤ b2.toNat ∧ b2.toNat ≤ 0xBF := by
              have := hs.2; unfold cont at this; simpa using this
            dsimp only
            generalize hr : (b0.toNat - 0xE0) * 4096 + (b1.toNat - 0x80) * 64 + (b2.toNat - 0x80) = r
            have e0 : b0 = UInt8.ofNat (0xE0 + r / 4096) := u8_eq (by omega)
            have e1 : b1 = UInt8.ofNat (0x80 + r / 64 % 64) := u8_eq (by omega)
            have e2 : b2 = UInt8.ofNat (0x80 + r % 64) := u8_eq (by omega)
            have hlo : 0x800 ≤ r := by
              by_cases hz : b0.toNat = 0xE0
              · have := l5 hz; omega
              · omega
            have hsc : Scalar r := by
              unfold Scalar
              by_cases hz : b0.toNat = 0xED
              · have := l6 hz; left; omega
              · omega
            refine ⟨hsc, ?_, ?_⟩
            · unfold enc; rw [if_neg (by omega), if_neg (by omega), if_pos (by omega)]; rfl
            · unfold enc; rw [if_neg (by omega), if_neg (by omega), if_pos (by omega), ← e0, ← e1, ← e2]; rfl
          · rw [if_neg hs] at h; simp at h
      · rw [hl] at h ⊢
        simp only [Nat.reduceEqDiff, reduceIte] at h ⊢
        match t with
        | [] => simp [decode2, decode3, decode4] at h
        | [_] => simp [decode2, decode3, decode4] at h
        | [_, _] => simp [decode2, decode3, decode4] at h
        | b1 :: b2 :: b3 :: t =>
          simp only [decode2, decode3, decode4] at h ⊢
          by_cases hs : (second b0 b1 && cont b2 && cont b3) = true
          · rw [if_pos hs]
            simp only [Bool.and_eq_true] at hs
            have hs1 : (lead b0.toNat).2.1 ≤ b1.toNat ∧ b1.toNat ≤ (lead b0.toNat).2.2 := by
              have := hs.1.1; unfold second at this; simpa using this
            have hs2 : 0x80 ≤ b2.toNat ∧ b2.toNat ≤ 0xBF := by
              have := hs.1.2; unfold cont at this; simpa using this
            have hs3 : 0x80 ≤ b3.toNat ∧ b3.toNat ≤ 0xBF := by
              have := hs.2; unfold cont at this; simpa using this
            dsimp only
            generalize hr : (b0.toNat - 0xF0) * 262144 + (b1.toNat - 0x80) * 4096 + (b2.toNat - 0x80) * 64 +
              (b3.toNat - 0x80) = r
            have e0 : b0 = UInt8.ofNat (0xF0 + r / 262144) := u8_eq (by omega)
            have e1 : b1 = UInt8.ofNat (0x80 + r / 4096 % 64) := u8_eq (by omega)
            have e2 : b2 = UInt8.ofNat (0x80 + r / 64 % 64) := u8_eq (by omega)
            have e3 : b3 = UInt8.ofNat (0x80 + r % 64) := u8_eq (by omega)
            have hlo : 0x10000 ≤ r := by
              by_cases hz : b0.toNat = 0xF0
              · have := l5 hz; omega
              · omega
            have hhi : r < 0x110000 := by
              by_cases hz : b0.toNat = 0xF4
              · have := l6 hz; omega
              · omega
            refine ⟨Or.inr (by omega), ?_, ?_⟩
            · unfold enc; rw [if_neg (by omega), if_neg (by omega), if_neg (by omega)]; rfl
            · unfold enc; rw [if_neg (by omega), if_neg (by omega), if_neg (by omega), ← e0, ← e1, ← e2, ← e3]; rfl
          · rw [if_neg hs] at h; simp at h

/-- If the bytes begin with a whole rune or a definite error, more bytes change nothing. -/
theorem decode_full (d x : Bytes) (h : fullRune d = true) : decode (d ++ x) = decode d := by
  match d with
  | [] => simp [fullRune] at h
  | [b0] =>
    simp only [fullRune, decide_eq_true_eq] at h
    simp only [decode, List.cons_append]
    rw [if_neg (show ¬ (lead b0.toNat).1 = 2 by omega), if_neg (show ¬ (lead b0.toNat).1 = 3 by omega),
      if_neg (show ¬ (lead b0.toNat).1 = 4 by omega), if_neg (show ¬ (lead b0.toNat).1 = 2 by omega),
      if_neg (show ¬ (lead b0.toNat).1 = 3 by omega), if_neg (show ¬ (lead b0.toNat).1 = 4 by omega)]
  | [b0, b1] =>
    simp only [fullRune, Bool.or_eq_true, decide_eq_true_eq, Bool.not_eq_true'] at h
    simp only [decode, List.cons_append, List.nil_append, decode2]
    rcases h with h | h
    · rw [if_neg (show ¬ (lead b0.toNat).1 = 3 by omega), if_neg (show ¬ (lead b0.toNat).1 = 4 by omega),
        if_neg (show ¬ (lead b0.toNat).1 = 3 by omega), if_neg (show ¬ (lead b0.toNat).1 = 4 by omega)]
    · have e3 : ∀ t, decode3 b0 (b1 :: t) = (0xFFFD, 1) := by
        intro t; cases t <;> simp [decode3, h]
      have e4 : ∀ t, decode4 b0 (b1 :: t) = (0xFFFD, 1) := by
        intro t
        match t with
        | [] => rfl
        | [_] => rfl
        | _ :: _ :: _ => simp [decode4, h]
      rw [e3, e3, e4, e4]
  | [b0, b1, b2] =>
    simp only [fullRune, Bool.or_eq_true, decide_eq_true_eq, Bool.not_eq_true'] at h
    simp only [decode, List.cons_append, List.nil_append, decode2, decode3]
    by_cases h4 : (lead b0.toNat).1 ≤ 3
    · rw [if_neg (show ¬ (lead b0.toNat).1 = 4 by omega), if_neg (show ¬ (lead b0.toNat).1 = 4 by omega)]
    · have e4 : ∀ t, decode4 b0 (b1 :: b2 :: t) = (0xFFFD, 1) := by
        intro t
        cases t with
        | nil => rfl
        | cons y t =>
          rcases h with (h | h) | h
          · omega
          · simp [decode4, h]
          · simp [decode4, h]
      rw [e4, e4]
  | b0 :: b1 :: b2 :: b3 :: t =>
    simp only [List.cons_append, decode, decode2, decode3, decode4]

/-- A valid rune at the start is found whatever follows. -/
theorem decode_append (d x : Bytes) (h : (decode d).2 > 1) : decode (d ++ x) = decode d := by
  obtain ⟨h1, h2, h3⟩ := decode_sound d h
  have hd : d = enc (decode d).1 ++ d.drop (decode d).2 := by rw [h3, List.take_append_drop]
  have hx : d ++ x = enc (decode d).1 ++ (d.drop (decode d).2 ++ x) := by
    rw [← List.append_assoc, ← hd]
  rw [hx, decode_enc _ h1, h2]

theorem decode_width (d : Bytes) (hd : d ≠ []) : 1 ≤ (decode d).2 ∧ (decode d).2 ≤ d.length ∧ (decode d).2 ≤ 4 := by
  cases d with
  | nil => exact absurd rfl hd
  | cons b t =>
    by_cases h : (decode (b :: t)).2 > 1
    · obtain ⟨h1, h2, h3⟩ := decode_sound _ h
      have h4 := congrArg List.length h3
      rw [List.length_take] at h4
      have h5 : (enc (decode (b :: t)).1).length ≤ 4 := by
        unfold enc
        split
        · simp
        split
        · simp
        split <;> simp
      omega
    · have : 1 ≤ (decode (b :: t)).2 := by
        simp only [decode]
        split
        · exact Nat.le_refl _
        split
        · unfold decode2; split <;> (try split) <;> simp
        split
        · unfold decode3; split <;> (try split) <;> simp
        split
        · unfold decode4; split <;> (try split) <;> simp
        · simp
      simp at *; omega

theorem decode_ascii (b : UInt8) (t : Bytes) (h : b.toNat < 0x80) :
    decode (b :: t) = (b.toNat, 1) ∧ enc b.toNat = [b] ∧ Scalar b.toNat := by
  refine ⟨by simp [decode, h], ?_, Or.inl (by omega)⟩
  unfold enc
  rw [if_pos h, UInt8.ofNat_toNat]

/-- Every text is ranged over in one way only. -/
theorem ranged_unique (t : Bytes) (rs : List Nat) (h : Ranged t rs) : ∀ rs', Ranged t rs' → rs' = rs := by
  induction h with
  | nil =>
    intro rs' h'
    generalize he : ([] : Bytes) = t at h'
    cases h' with
    | nil => rfl
    | rune r rest rs hr _ =>
      have := congrArg List.length he
      rw [List.length_append] at this
      have : 1 ≤ (enc r).length := by
        unfold enc
        split
        · simp
        split
        · simp
        split <;> simp
      simp at *; omega
    | bad => cases he
  | rune r rest rs hr _ ih =>
    intro rs' h'
    generalize he : enc r ++ rest = t at h'
    cases h' with
    | nil =>
      have := decode_enc r hr rest
      rw [he] at this
      have h2 := congrArg List.length he
      rw [List.length_append] at h2
      simp [decode] at this
      have h3 : (enc r).length = 0 := by simp at h2; simp [h2.1]
      exfalso
      have : 1 ≤ (enc r).length := by
        unfold enc
        split
        · simp
        split
        · simp
        split <;> simp
      omega
    | rune r' rest' rs'' hr' h'' =>
      have e1 := decode_enc r hr rest
      have e2 := decode_enc r' hr' rest'
      rw [he, e2] at e1
      have : r' = r := (Prod.mk.inj e1).1
      subst this
      rw [← List.append_cancel_left he] at h''
      rw [ih _ h'']
    | bad b rest' rs'' hb h'' => exact absurd he.symm (hb r rest hr)
  | bad b rest rs hb _ ih =>
    intro rs' h'
    generalize he : b :: rest = t at h'
    cases h' with
    | nil => cases he
    | rune r rest' rs'' hr h'' => exact absurd he (hb r rest' hr)
    | bad b' rest' rs'' hb' h'' =>
      cases he
      rw [ih _ h'']

/-- A text made of encodings is ranged over as what it was made of. -/
theorem ranged_text (rs : List Nat) (h : ∀ r ∈ rs, Scalar r) : Ranged (rs.flatMap enc) rs := by
  induction rs with
  | nil => exact .nil
  | cons r rs ih =>
    rw [List.flatMap_cons]
    exact .rune r _ _ (h r (by simp)) (ih fun r' hr' => h r' (by simp [hr']))

/-! ## Scanning -/

theorem scanRunes_cases (d : Bytes) (hd : d ≠ []) (e : Bool) :
    ((decode d).2 > 1 ∨ ∃ b t, d = b :: t ∧ b.toNat < 0x80) ∧
      scanRunes d e = .ok (decode d).2 (some (d.take (decode d).2)) ∨
    ((decode d).2 = 1 ∧ (∀ b t, d = b :: t → ¬ b.toNat < 0x80) ∧
      scanRunes d e = if e = false ∧ fullRune d = false then .ok 0 none else .ok 1 (some [0xEF, 0xBF, 0xBD])) := by
  cases d with
  | nil => exact absurd rfl hd
  | cons b t =>
    have hw := decode_width (b :: t) hd
    unfold scanRunes
    rw [if_neg (by simp)]
    dsimp only
    by_cases h0 : b.toNat < 0x80
    · left
      rw [if_pos h0, (decode_ascii b t h0).1]
      exact ⟨Or.inr ⟨b, t, rfl, h0⟩, rfl⟩
    · rw [if_neg h0]
      by_cases h1 : (decode (b :: t)).2 > 1
      · left
        rw [if_pos h1]
        exact ⟨Or.inl h1, rfl⟩
      · right
        rw [if_neg h1]
        refine ⟨by omega, ?_, rfl⟩
        intro b' t' h
        cases h
        exact h0

theorem good_runes : Good scanRunes := by
  refine ⟨?_, ?_, ?_, ?_⟩
  · intro d n t hd h
    have hw := decode_width d hd
    rcases scanRunes_cases d hd false with ⟨h1, h2⟩ | ⟨h1, h2, h3⟩
    · rw [h2] at h
      cases h
      refine Or.inr ⟨_, rfl, by omega, by omega, fun x c => ?_⟩
      have hdec : decode (d ++ x) = decode d := by
        rcases h1 with h1 | ⟨b, t, rfl, hb⟩
        · exact decode_append d x h1
        · rw [List.cons_append, (decode_ascii b _ hb).1, (decode_ascii b _ hb).1]
      rcases scanRunes_cases (d ++ x) (by simp [hd]) c with ⟨k1, k2⟩ | ⟨k1, k2, k3⟩
      · rw [k2, hdec, List.take_append_of_le_length (by omega)]
      · exfalso
        rcases h1 with h1 | ⟨b, t, rfl, hb⟩
        · rw [hdec] at k1; omega
        · exact k2 b _ rfl hb
    · rw [h3] at h
      by_cases hf : fullRune d = false
      · rw [if_pos ⟨rfl, hf⟩] at h
        cases h
        exact Or.inl ⟨rfl, rfl⟩
      · rw [if_neg (by simp [hf])] at h
        cases h
        have hft : fullRune d = true := by simpa using hf
        refine Or.inr ⟨_, rfl, by omega, by omega, fun x c => ?_⟩
        have hdec := decode_full d x hft
        cases d with
        | nil => exact absurd rfl hd
        | cons b t =>
          rcases scanRunes_cases (b :: t ++ x) (by simp) c with ⟨k1, k2⟩ | ⟨k1, k2, k3⟩
          · exfalso
            rcases k1 with k1 | ⟨b', t', k1, k4⟩
            · rw [hdec] at k1; omega
            · rw [List.cons_append] at k1
              cases k1
              exact h2 b t rfl k4
          · rw [k3]
            by_cases hc : c = false ∧ fullRune (b :: t ++ x) = false
            · exfalso
              have : fullRune (b :: t ++ x) = true := by
                match t with
                | [] =>
                  simp only [fullRune, decide_eq_true_eq] at hft
                  match x with
                  | [] => simp [fullRune, hft]
                  | [_] => simp [fullRune]; left; omega
                  | [_, _] => simp [fullRune]; left; left; omega
                  | _ :: _ :: _ :: _ => rfl
                | [b1] =>
                  simp only [fullRune, Bool.or_eq_true, decide_eq_true_eq, Bool.not_eq_true'] at hft
                  match x with
                  | [] => simpa [fullRune] using hft
                  | [_] =>
                    simp only [List.cons_append, List.nil_append, fullRune, Bool.or_eq_true, decide_eq_true_eq,
                      Bool.not_eq_true']
                    left
                    rcases hft with hft | hft
                    · left; omega
                    · right; exact hft
                  | _ :: _ :: _ => rfl
                | [b1, b2] =>
                  match x with
                  | [] => simpa using hft
                  | _ :: _ => rfl
                | _ :: _ :: _ :: _ => rfl
              rw [this] at hc
              exact absurd hc.2 (by simp)
            · rw [if_neg hc]
  · intro d b h
    by_cases hd : d = []
    · subst hd
      rcases h with h | h
      · exact absurd rfl h
      · subst h; exact ⟨0, none, rfl⟩
    · rcases scanRunes_cases d hd b with ⟨_, h2⟩ | ⟨_, _, h2⟩
      · exact ⟨_, _, h2⟩
      · rw [h2]
        split
        · exact ⟨_, _, rfl⟩
        · exact ⟨_, _, rfl⟩
  · intro d n t h
    by_cases hd : d = []
    · subst hd; cases h
    · have hw := decode_width d hd
      rcases scanRunes_cases d hd true with ⟨_, h2⟩ | ⟨_, _, h2⟩
      · rw [h2] at h; cases h; omega
      · rw [h2, if_neg (by simp)] at h; cases h; omega
  · intro d n h
    by_cases hd : d = []
    · subst hd; cases h; simp
    · rcases scanRunes_cases d hd true with ⟨_, h2⟩ | ⟨_, _, h2⟩
      · rw [h2] at h; cases h
      · rw [h2, if_neg (by simp)] at h; cases h

/-- No encoding begins with a byte that decodes with width 1 and is not ASCII. -/
theorem no_enc (b : UInt8) (t : Bytes) (h0 : ¬ b.toNat < 0x80) (h1 : (decode (b :: t)).2 = 1) (r : Nat) (x : Bytes)
    (hr : Scalar r) : b :: t ≠ enc r ++ x := by
  intro h
  have hd := decode_enc r hr x
  rw [← h] at hd
  rw [hd] at h1
  dsimp only at h1
  have : r < 0x80 := by
    unfold enc at h1
    by_cases h2 : r < 0x80
    · exact h2
    · rw [if_neg h2] at h1
      split at h1
      · simp at h1
      split at h1 <;> simp at h1
  unfold enc at h
  rw [if_pos this] at h
  have hb : b = UInt8.ofNat r := (List.cons.inj h).1
  rw [hb, ofNat_toNat (by omega)] at h0
  exact h0 this

theorem tokens_runes : ∀ (m : Nat) (R : Bytes), R.length < m →
    ∃ rs, Ranged R rs ∧ tokens scanRunes m R = rs.map enc := by
  intro m
  induction m with
  | zero => intro R h; omega
  | succ m ih =>
    intro R hm
    by_cases hd : R = []
    · subst hd
      exact ⟨[], .nil, rfl⟩
    · have hw := decode_width R hd
      simp only [tokens]
      rcases scanRunes_cases R hd true with ⟨h1, h2⟩ | ⟨h1, h2, h3⟩
      · obtain ⟨rs, i1, i2⟩ := ih (R.drop (decode R).2) (by rw [List.length_drop]; omega)
        have key : Scalar (decode R).1 ∧ enc (decode R).1 = R.take (decode R).2 := by
          rcases h1 with h1 | ⟨b, t, rfl, hb⟩
          · exact ⟨(decode_sound R h1).1, (decode_sound R h1).2.2⟩
          · obtain ⟨k1, k2, k3⟩ := decode_ascii b t hb
            rw [k1]
            exact ⟨k3, by rw [k2]; rfl⟩
        refine ⟨(decode R).1 :: rs, ?_, ?_⟩
        · have := Ranged.rune (decode R).1 (R.drop (decode R).2) rs key.1 i1
          rw [key.2, List.take_append_drop] at this
          exact this
        · rw [h2]
          dsimp only
          rw [i2, List.map_cons, key.2]
      · cases R with
        | nil => exact absurd rfl hd
        | cons b t =>
          obtain ⟨rs, i1, i2⟩ := ih t (by simp at hm; omega)
          refine ⟨0xFFFD :: rs, .bad b t rs (no_enc b t (h2 b t rfl) h1) i1, ?_⟩
          rw [h3, if_neg (by simp)]
          dsimp only
          rw [List.drop_one, List.tail_cons, i2]
          rfl

theorem fits_runes (l : Nat) (hl : 4 ≤ l) : ∀ (m : Nat) (R : Bytes), Fits scanRunes l m R := by
  intro m
  induction m with
  | zero => intro R; trivial
  | succ m ih =>
    intro R
    refine ⟨?_, fun n t _ => ih _⟩
    by_cases h : R.length < l
    · exact Or.inl h
    · right
      have hlen : (R.take l).length = l := by rw [List.length_take]; omega
      have hd : R.take l ≠ [] := by intro h0; rw [h0] at hlen; simp at hlen; omega
      rcases scanRunes_cases (R.take l) hd false with ⟨_, h2⟩ | ⟨_, _, h2⟩
      · exact ⟨_, _, h2⟩
      · have hf : fullRune (R.take l) = true := by
          generalize R.take l = d at hlen
          match d with
          | [] => simp at hlen; omega
          | [_] => simp at hlen; omega
          | [_, _] => simp at hlen; omega
          | [_, _, _] => simp at hlen; omega
          | _ :: _ :: _ :: _ :: _ => rfl
        rw [h2, if_neg (by simp [hf])]
        exact ⟨_, _, rfl⟩

/-- **C145.** With `Split(ScanRunes)`, however the input is cut into reads (also inside a rune): the usual loop gets the
encodings of what `range` over the whole input gives, in order, and then stops; `Err` reports the reader's error. The buffer
may be any that can hold one rune. -/
theorem runes_exact (cap max : Nat) (src : Script) (hl : Lively src) (hc : 4 ≤ cap ∨ 4 ≤ max) :
    ∃ rs s', Ranged (stream src).1 rs ∧
      (∀ f, (stream src).1.length < f →
        scanAll scanRunes f (new cap max src) = some (rs.map (fun r => some (enc r)), s')) ∧
      errOf s' = (if (stream src).2 = .eof then none else some (.io (stream src).2)) := by
  have hlim : 4 ≤ lim (new cap max src) := by
    show 4 ≤ (if cap ≤ max then max else cap)
    by_cases h : cap ≤ max
    · rw [if_pos h]; omega
    · rw [if_neg h]; omega
  obtain ⟨s', h1, h2, h3, h4⟩ := scanAll_spec scanRunes good_runes (stream src).2 ((stream src).1.length + 1)
    (new cap max src) (stream src).1 (by omega) (rem_new cap max src hl) (by omega) (fits_runes _ hlim _ _)
  obtain ⟨rs, r1, r2⟩ := tokens_runes ((stream src).1.length + 1) (stream src).1 (by omega)
  refine ⟨rs, s', r1, fun f hf => by rw [h1 f hf, r2]; simp [Function.comp_def], ?_⟩
  unfold errOf
  rw [h2]
  by_cases he : (stream src).2 = .eof
  · simp [he]
  · rw [if_neg (by simpa using he), if_neg he]

/-- U+20AC cut after each byte; a byte that begins nothing; an encoding broken off at the end. -/
theorem runes_example :
    (scanAll scanRunes 9 (new 0 4 [([0xE2], none), ([0x82], none), ([0xAC, 0xFF], none), ([97, 0xE2], some .eof)])).map (·.1) =
      some [some [0xE2, 0x82, 0xAC], some [0xEF, 0xBF, 0xBD], some [97], some [0xEF, 0xBF, 0xBD]] ∧
    enc 0x20AC = [0xE2, 0x82, 0xAC] ∧ enc 0xFFFD = [0xEF, 0xBF, 0xBD] := by
  refine ⟨by decide +kernel, by decide, by decide⟩

end Verif.Bufio.Runes
