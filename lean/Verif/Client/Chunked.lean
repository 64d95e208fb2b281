import Verif.Common
set_option linter.unusedSimpArgs false
set_option linter.unusedVariables false
/-! # C31 — chunked transfer coding

Models `libcs/client/std/chunked.go`: `chunkedWriter.Write`/`Close` (208-245), `parseHexUint` (256-277),
`readChunkLine`, `trimTrailingWhitespace`, `removeChunkExtension` (133-187), `chunkedReader.beginChunk`
and `Read` (58-131).

Simplifications: the underlying (standard library) `bufio.Reader` is the stream of unread bytes; how many
bytes one of its reads returns and whether enough bytes are buffered (`Buffered() < 2`,
`chunkHeaderAvailable`) are arbitrary choices of the environment at every iteration.  Its buffer has the
default 4096 bytes.  Errors of the underlying connection other than end of stream, and errors of the
underlying writer, are not modelled. -/

namespace Verif.Client.Chunked
open Verif

inductive Err | eof | unexpectedEOF | malformed | lineTooLong | invalidByte | tooLarge
deriving DecidableEq, Repr

/-- One hexadecimal digit of `fmt`'s `%x` (lower case). -/
def hexDigit (d : Nat) : UInt8 := if d < 10 then UInt8.ofNat (48 + d) else UInt8.ofNat (87 + d)

/-- `fmt.Sprintf("%x", n)`. -/
def hexStr (n : Nat) : Bytes := if n < 16 then [hexDigit n] else hexStr (n / 16) ++ [hexDigit (n % 16)]
termination_by n
decreasing_by omega

/-- libcs/client/std/chunked.go:216-239 `chunkedWriter.Write`: the bytes it sends. -/
def encode (data : Bytes) : Bytes :=
  if data.length = 0 then [] else hexStr data.length ++ [13, 10] ++ data ++ [13, 10]

/-- Several writes followed by `Close` (libcs/client/std/chunked.go:241-244). -/
def encodeAll (ws : List Bytes) : Bytes := (ws.map encode).flatten ++ [48, 13, 10]

/-- libcs/client/std/chunked.go:258-266: the value of one digit. -/
def hexVal (b : UInt8) : Option Nat :=
  if 48 ≤ b.toNat ∧ b.toNat ≤ 57 then some (b.toNat - 48)
  else if 97 ≤ b.toNat ∧ b.toNat ≤ 102 then some (b.toNat - 97 + 10)
  else if 65 ≤ b.toNat ∧ b.toNat ≤ 70 then some (b.toNat - 65 + 10)
  else none

/-- libcs/client/std/chunked.go:255-274 `parseHexUint`: `i` is the index of the digit.  `n <<= 4; n |= b` on a `uint64`. -/
def parseHex : Nat → Nat → Bytes → Except Err Nat
  | _, n, [] => .ok n
  | i, n, b :: r =>
    match hexVal b with
    | none => .error .invalidByte
    | some d => if i = 16 then .error .tooLarge else parseHex (i + 1) ((n * 16) % 2 ^ 64 + d) r

/-- libcs/client/std/chunked.go:172-174 `isASCIISpace`. -/
def isSpace (b : UInt8) : Bool := b = 32 || b = 9 || b = 10 || b = 13

/-- libcs/client/std/chunked.go:165-170 `trimTrailingWhitespace`. -/
def trim (l : Bytes) : Bytes := (l.reverse.dropWhile isSpace).reverse

/-- libcs/client/std/chunked.go:184-190 `removeChunkExtension` (`bytes.Cut` at `;`). -/
def cutSemi (l : Bytes) : Bytes := l.takeWhile (· ≠ 59)

/-- `ReadSlice('\n')`: the line with its newline and what follows. -/
def cutLine : Bytes → Option (Bytes × Bytes)
  | [] => none
  | c :: r => if c = 10 then some ([c], r) else (cutLine r).map fun x => (c :: x.1, x.2)

/-- libcs/client/std/chunked.go:142-163 `readChunkLine`, with the 4096-byte buffer of the reader. -/
def readChunkLine (rem : Bytes) : Except Err (Bytes × Bytes) :=
  match cutLine rem with
  | none => .error (if rem.length ≥ 4096 then .lineTooLong else .unexpectedEOF)
  | some (l, r) => if l.length ≥ 4096 then .error .lineTooLong else .ok (cutSemi (trim l), r)

/-- libcs/client/std/chunked.go:51-57 `chunkedReader` (with the unread bytes of the underlying reader). -/
structure CR where
  rem : Bytes
  n : Nat := 0
  err : Option Err := none
  checkEnd : Bool := false
deriving DecidableEq, Repr

/-- libcs/client/std/chunked.go:59-73 `beginChunk`. -/
def beginChunk (s : CR) : CR :=
  match readChunkLine s.rem with
  | .error e => { s with err := some e }
  | .ok (l, r) =>
    match parseHex 0 0 l with
    | .error e => { s with rem := r, n := 0, err := some e }
    | .ok n => { s with rem := r, n := n, err := if n = 0 then some .eof else none }

/-- One iteration's choices of the environment. -/
structure Choice where
  low : Bool   -- `Buffered() < 2`
  header : Bool   -- `chunkHeaderAvailable()`
  k : Nat   -- bytes the underlying read returns (made legal below)

/-- libcs/client/std/chunked.go:86-105: check of the chunk footer; `true` means leave the loop. -/
def footer (s : CR) (out : Bytes) (c : Choice) : CR × Bool :=
  if s.checkEnd then
    if out.length > 0 ∧ c.low = true then (s, true)
    else
      match s.rem with
      | a :: b :: r =>
        if a = 13 ∧ b = 10 then ({ s with rem := r, checkEnd := false }, false)
        else ({ s with rem := r, err := some .malformed }, true)
      | _ => ({ s with rem := [], err := some .unexpectedEOF }, true)
  else (s, false)

/-- libcs/client/std/chunked.go:118-133: reading data of the current chunk into a buffer with `blen` bytes left. -/
def readData (s : CR) (blen : Nat) (c : Choice) : Bytes × CR :=
  let m := min (min blen s.n) s.rem.length
  let k := min (max c.k 1) m
  if k = 0 then ([], { s with err := some .unexpectedEOF })
  else (s.rem.take k, { s with rem := s.rem.drop k, n := s.n - k, checkEnd := decide (s.n - k = 0) })

/-- libcs/client/std/chunked.go:84-136 `Read`: the loop.  `blen` is `len(b)`, `out` what was read so far. -/
def readLoop (env : Nat → Choice) : Nat → CR → Nat → Bytes → Bytes × CR
  | 0, s, _, out => (out, s)
  | fuel + 1, s, blen, out =>
    if s.err ≠ none then (out, s)
    else
      let f := footer s out (env fuel)
      if f.2 then (out, f.1)
      else if f.1.n = 0 then
        if out.length > 0 ∧ (env fuel).header = false then (out, f.1)
        else readLoop env fuel (beginChunk f.1) blen out
      else if blen = 0 then (out, f.1)
      else
        let d := readData f.1 blen (env fuel)
        readLoop env fuel d.2 (blen - d.1.length) (out ++ d.1)

/-- libcs/client/std/chunked.go:84-136 `Read(b)` with `len(b) = blen`: the bytes returned, the error returned (`err`) and the
new state.  Every iteration that does not leave the loop consumes a byte, so the fuel suffices
(`read_spec` would fail otherwise). -/
def read (env : Nat → Choice) (s : CR) (blen : Nat) : Bytes × CR := readLoop env (s.rem.length + 2) s blen []

/-- A sequence of reads with buffers of the given sizes: everything returned and the last state. -/
def reads : CR → List (Nat × (Nat → Choice)) → Bytes × CR
  | s, [] => ([], s)
  | s, (b, env) :: r =>
    let a := read env s b
    let x := reads a.2 r
    (a.1 ++ x.1, x.2)

/-! ## Lemmas: hexadecimal -/

theorem hexVal_lt {b : UInt8} {d : Nat} (h : hexVal b = some d) : d < 16 := by
  unfold hexVal at h
  split at h
  · simp at h; omega
  · split at h
    · simp at h; omega
    · split at h
      · simp at h; omega
      · simp at h

/-- The digits of a chunk length are the sixteen hexadecimal digits, in either case, and nothing else. -/
theorem hex_digits (b : UInt8) (d : Nat) : hexVal b = some d ↔
    ("0123456789abcdef".toList.map Char.toNat)[d]? = some b.toNat ∨
    ("0123456789ABCDEF".toList.map Char.toNat)[d]? = some b.toNat := by
  have key : ∀ b : Fin 256, ∀ d : Fin 16, (hexVal (UInt8.ofNat b.1) = some d.1 ↔
      ("0123456789abcdef".toList.map Char.toNat)[d.1]? = some b.1 ∨
      ("0123456789ABCDEF".toList.map Char.toNat)[d.1]? = some b.1) := by decide +kernel
  by_cases hd : d < 16
  · have := key ⟨b.toNat, b.toNat_lt⟩ ⟨d, hd⟩
    simpa using this
  · have h1 : ("0123456789abcdef".toList.map Char.toNat)[d]? = none :=
      List.getElem?_eq_none (by simpa using hd)
    have h2 : ("0123456789ABCDEF".toList.map Char.toNat)[d]? = none :=
      List.getElem?_eq_none (by simpa using hd)
    rw [h1, h2]
    constructor
    · intro h; exact absurd (hexVal_lt h) hd
    · rintro (h | h) <;> cases h

theorem hexVal_digit {d : Nat} (h : d < 16) : hexVal (hexDigit d) = some d := by
  have : ∀ d : Fin 16, hexVal (hexDigit d.1) = some d.1 := by decide
  exact this ⟨d, h⟩

theorem hexDigit_plain {d : Nat} (h : d < 16) :
    isSpace (hexDigit d) = false ∧ hexDigit d ≠ 59 ∧ hexDigit d ≠ 10 := by
  have : ∀ d : Fin 16, isSpace (hexDigit d.1) = false ∧ hexDigit d.1 ≠ 59 ∧ hexDigit d.1 ≠ 10 := by decide
  exact this ⟨d, h⟩

/-- The number a string of digits spells, most significant first. -/
def value : Bytes → Nat → Option Nat
  | [], n => some n
  | b :: r, n => match hexVal b with
    | none => none
    | some d => value r (n * 16 + d)

theorem value_append (a b : Bytes) (n : Nat) : value (a ++ b) n = (value a n).bind (value b) := by
  induction a generalizing n with
  | nil => simp [value]
  | cons x r ih =>
    simp only [List.cons_append, value]
    cases hexVal x with
    | none => simp
    | some d => simp [ih]

theorem parseHex_spec (i n : Nat) (l : Bytes) (hi : i ≤ 16) (hn : n < 16 ^ i) (m : Nat) :
    parseHex i n l = .ok m ↔ (value l n = some m ∧ i + l.length ≤ 16) := by
  induction l generalizing i n with
  | nil => simp [parseHex, value]; omega
  | cons b r ih =>
    simp only [parseHex, value]
    cases hv : hexVal b with
    | none => simp
    | some d =>
      simp only
      by_cases h16 : i = 16
      · simp [h16]
      · simp only [h16, if_false]
        have hd := hexVal_lt hv
        have hlt : n * 16 < 2 ^ 64 := by
          have h1 : 16 ^ i ≤ 16 ^ 15 := Nat.pow_le_pow_right (by omega) (by omega)
          have h2 : (16 : Nat) ^ 15 * 16 = 2 ^ 64 := by decide
          omega
        rw [Nat.mod_eq_of_lt hlt]
        rw [ih (i + 1) _ (by omega) (by rw [Nat.pow_succ]; omega)]
        simp only [List.length_cons]
        constructor
        · rintro ⟨a, b⟩; exact ⟨a, by omega⟩
        · rintro ⟨a, b⟩; exact ⟨a, by omega⟩

theorem value_hexStr (n : Nat) : value (hexStr n) 0 = some n := by
  induction n using Nat.strongRecOn with
  | ind n ih =>
    unfold hexStr
    split
    · rename_i h; simp [value, hexVal_digit h]
    · rename_i h
      rw [value_append, ih (n / 16) (by omega)]
      simp [value, hexVal_digit (show n % 16 < 16 by omega)]
      omega

theorem hexStr_ne_nil (n : Nat) : hexStr n ≠ [] := by
  unfold hexStr; split <;> simp

theorem hexStr_mem {n : Nat} {b : UInt8} (h : b ∈ hexStr n) : ∃ d, d < 16 ∧ b = hexDigit d := by
  induction n using Nat.strongRecOn with
  | ind n ih =>
    unfold hexStr at h
    split at h
    · rename_i hn; simp at h; exact ⟨n, hn, h⟩
    · rename_i hn
      rw [List.mem_append, List.mem_singleton] at h
      rcases h with h | h
      · exact ih (n / 16) (by omega) h
      · exact ⟨n % 16, by omega, h⟩

theorem hexStr_length {n k : Nat} (hk : 1 ≤ k) (h : n < 16 ^ k) : (hexStr n).length ≤ k := by
  induction k generalizing n with
  | zero => omega
  | succ k ih =>
    unfold hexStr
    split
    · simp
    · rename_i hn
      have hk' : 1 ≤ k := by
        rcases Nat.eq_zero_or_pos k with h0 | h0
        · subst h0; simp at h; omega
        · exact h0
      have := ih hk' (n := n / 16) (by rw [Nat.pow_succ] at h; omega)
      simp; omega

/-- **C31, lengths**: `parseHexUint` accepts exactly the strings of at most 16 hexadecimal digits and
returns the number they spell — including the empty string, which it takes for 0. -/
theorem parse_hex_exact (v : Bytes) (n : Nat) :
    parseHex 0 0 v = .ok n ↔ (value v 0 = some n ∧ v.length ≤ 16) := by
  have := parseHex_spec 0 0 v (by omega) (by simp) n
  simpa using this

/-- The empty chunk-size line counts as the final chunk. -/
theorem empty_length_is_zero : parseHex 0 0 [] = .ok 0 := rfl

/-! ## Lemmas: lines -/

theorem cutLine_append {l r : Bytes} (h : (10 : UInt8) ∉ l) : cutLine (l ++ 10 :: r) = some (l ++ [10], r) := by
  induction l with
  | nil => simp [cutLine]
  | cons a t ih =>
    simp only [List.mem_cons, not_or] at h
    have ha : ¬ a = 10 := fun e => h.1 e.symm
    simp [cutLine, ha, ih h.2]

theorem cutSemi_of {l : Bytes} (h : ∀ b ∈ l, b ≠ 59) : cutSemi l = l := by
  induction l with
  | nil => rfl
  | cons a r ih =>
    have h1 := h a (by simp)
    have h2 := ih (fun b hb => h b (by simp [hb]))
    simp [cutSemi, List.takeWhile_cons, h1] at h2 ⊢
    exact h2

theorem trim_line {l : Bytes} (hne : l ≠ []) (h : ∀ b ∈ l, isSpace b = false) : trim (l ++ [13, 10]) = l := by
  unfold trim
  have e : (l ++ [13, 10]).reverse = 10 :: 13 :: l.reverse := by simp
  rw [e]
  simp only [List.dropWhile_cons, show isSpace 10 = true from by decide, show isSpace 13 = true from by decide, if_true]
  cases hl : l.reverse with
  | nil => simp at hl; exact absurd hl hne
  | cons a r =>
    have ha : isSpace a = false := h a (by rw [← List.mem_reverse, hl]; simp)
    simp only [List.dropWhile_cons, ha]
    have := congrArg List.reverse hl
    simpa using this.symm

theorem readChunkLine_hex {n : Nat} (hn : n < 2 ^ 64) (r : Bytes) :
    readChunkLine (hexStr n ++ [13, 10] ++ r) = .ok (hexStr n, r) := by
  have hplain : ∀ b ∈ hexStr n, isSpace b = false ∧ b ≠ 59 ∧ b ≠ 10 := by
    intro b hb
    obtain ⟨d, hd, rfl⟩ := hexStr_mem hb
    exact hexDigit_plain hd
  have hlen : (hexStr n).length ≤ 16 := hexStr_length (by omega) (by
    have : (16 : Nat) ^ 16 = 2 ^ 64 := by decide
    omega)
  have hc : cutLine (hexStr n ++ [13, 10] ++ r) = some (hexStr n ++ [13, 10], r) := by
    have := cutLine_append (l := hexStr n ++ [13]) (r := r) (by
      simp only [List.mem_append, List.mem_singleton, not_or]
      exact ⟨fun h => (hplain _ h).2.2 rfl, by decide⟩)
    simpa using this
  unfold readChunkLine
  rw [hc]
  simp only
  have hl : ¬ (hexStr n ++ [13, 10]).length ≥ 4096 := by simp; omega
  simp only [hl, if_false]
  rw [trim_line (hexStr_ne_nil n) (fun b hb => (hplain b hb).1), cutSemi_of (fun b hb => (hplain b hb).2.1)]

/-! ## The reader's invariant -/

/-- `s` still has to deliver `d`, and then to stop with `tail` unread. -/
inductive Pending (tail : Bytes) : CR → Bytes → Prop
  | between (ws : List Bytes) : (∀ w ∈ ws, w.length < 2 ^ 64) →
      Pending tail { rem := encodeAll ws ++ tail } ws.flatten
  | inside (rest : Bytes) (ws : List Bytes) : rest ≠ [] → (∀ w ∈ ws, w.length < 2 ^ 64) →
      Pending tail { rem := rest ++ [13, 10] ++ encodeAll ws ++ tail, n := rest.length } (rest ++ ws.flatten)
  | atEnd (ws : List Bytes) : (∀ w ∈ ws, w.length < 2 ^ 64) →
      Pending tail { rem := [13, 10] ++ encodeAll ws ++ tail, checkEnd := true } ws.flatten
  | finished : Pending tail { rem := tail, err := some .eof } []

theorem encodeAll_cons (w : Bytes) (ws : List Bytes) : encodeAll (w :: ws) = encode w ++ encodeAll ws := by
  simp [encodeAll]

/-- `beginChunk` between chunks. -/
theorem begin_spec (tail : Bytes) (ws : List Bytes) (hw : ∀ w ∈ ws, w.length < 2 ^ 64) :
    Pending tail (beginChunk { rem := encodeAll ws ++ tail }) ws.flatten ∧
    (beginChunk { rem := encodeAll ws ++ tail }).rem.length < (encodeAll ws ++ tail).length ∧
    ((beginChunk { rem := encodeAll ws ++ tail }).err = none → 0 < (beginChunk { rem := encodeAll ws ++ tail }).n) := by
  induction ws with
  | nil =>
    have h : readChunkLine ([48, 13, 10] ++ tail) = .ok (hexStr 0, tail) := by
      have := readChunkLine_hex (n := 0) (by decide) tail
      have e : hexStr 0 = [48] := by unfold hexStr; decide
      rw [e] at this ⊢
      simpa using this
    have hp : parseHex 0 0 (hexStr 0) = .ok 0 := (parse_hex_exact _ _).2 ⟨value_hexStr 0, hexStr_length (by omega) (by decide)⟩
    have hb : beginChunk { rem := encodeAll [] ++ tail } = { rem := tail, err := some .eof } := by
      simp only [beginChunk, encodeAll, List.map_nil, List.flatten_nil, List.nil_append, h, hp, if_true]
    rw [hb]
    refine ⟨Pending.finished, ?_, by simp⟩
    simp [encodeAll]; omega
  | cons w ws ih =>
    have hw' : ∀ w ∈ ws, w.length < 2 ^ 64 := fun x hx => hw x (by simp [hx])
    by_cases h0 : w = []
    · subst h0
      have : encodeAll ([] :: ws) = encodeAll ws := by rw [encodeAll_cons]; simp [encode]
      rw [this]
      simpa using ih hw'
    · have hne : ¬ w.length = 0 := by
        intro h; exact h0 (List.length_eq_zero_iff.1 h)
      have hlt := hw w (by simp)
      have e : encodeAll (w :: ws) ++ tail = hexStr w.length ++ [13, 10] ++ (w ++ [13, 10] ++ encodeAll ws ++ tail) := by
        rw [encodeAll_cons]; simp [encode, h0, List.append_assoc]
      have hlen16 : (hexStr w.length).length ≤ 16 := hexStr_length (by omega) (by
        have : (16 : Nat) ^ 16 = 2 ^ 64 := by decide
        omega)
      have hp : parseHex 0 0 (hexStr w.length) = .ok w.length := (parse_hex_exact _ _).2 ⟨value_hexStr _, hlen16⟩
      have hb : beginChunk { rem := encodeAll (w :: ws) ++ tail } =
          { rem := w ++ [13, 10] ++ encodeAll ws ++ tail, n := w.length } := by
        simp only [beginChunk, e, readChunkLine_hex hlt, hp, hne, if_false]
      rw [hb]
      refine ⟨Pending.inside w ws h0 hw', ?_, ?_⟩
      · rw [e]; simp; omega
      · intro _; simp; omega

theorem readLoop_spec (env : Nat → Choice) (tail : Bytes) (fuel : Nat) (s : CR) (blen : Nat) (out d : Bytes)
    (hf : s.rem.length + 1 < fuel) (hp : Pending tail s d) :
    ∃ got d', (readLoop env fuel s blen out).1 = out ++ got ∧ d = got ++ d' ∧ got.length ≤ blen ∧
      Pending tail (readLoop env fuel s blen out).2 d' ∧
      (0 < blen → (out ++ got).length > 0 ∨ (readLoop env fuel s blen out).2.err = some .eof) := by
  induction fuel generalizing s blen out d with
  | zero => omega
  | succ fuel ih =>
    -- the last half of an iteration, in a chunk
    have inner : ∀ (rest : Bytes) (ws : List Bytes) (rl : Nat), rest ≠ [] → (∀ w ∈ ws, w.length < 2 ^ 64) →
        (rest ++ [13, 10] ++ encodeAll ws ++ tail).length < fuel →
        let s1 : CR := { rem := rest ++ [13, 10] ++ encodeAll ws ++ tail, n := rest.length }
        let res := if blen = 0 then (out, s1) else
          readLoop env fuel (readData s1 blen (env fuel)).2 (blen - (readData s1 blen (env fuel)).1.length)
            (out ++ (readData s1 blen (env fuel)).1)
        ∃ got d', res.1 = out ++ got ∧ rest ++ ws.flatten = got ++ d' ∧ got.length ≤ blen ∧ Pending tail res.2 d' ∧
          (0 < blen → (out ++ got).length > 0 ∨ res.2.err = some .eof) := by
      intro rest ws _ hne hw hlen s1 res
      by_cases hb : blen = 0
      · simp only [res, hb, if_true]
        exact ⟨[], rest ++ ws.flatten, by simp, by simp, by simp, Pending.inside rest ws hne hw, by simp⟩
      · simp only [res, hb, if_false]
        -- how many bytes the read returns
        have hrest : 0 < rest.length := List.length_pos_iff.2 hne
        have hm : min (min blen rest.length) (rest ++ [13, 10] ++ encodeAll ws ++ tail).length = min blen rest.length := by
          simp only [List.length_append]; omega
        generalize hk : min (max (env fuel).k 1) (min blen rest.length) = k
        have hk1 : 1 ≤ k := by omega
        have hk2 : k ≤ rest.length := by omega
        have hk3 : k ≤ blen := by omega
        have hrd : readData s1 blen (env fuel) = (rest.take k,
            { rem := rest.drop k ++ [13, 10] ++ encodeAll ws ++ tail, n := rest.length - k,
              checkEnd := decide (rest.length - k = 0) }) := by
          simp only [readData, s1, hm, hk]
          have hk0 : ¬ k = 0 := by omega
          have e1 : (rest ++ [13, 10] ++ encodeAll ws ++ tail).take k = rest.take k := by
            rw [List.append_assoc, List.append_assoc, List.take_append_of_le_length hk2]
          have e2 : (rest ++ [13, 10] ++ encodeAll ws ++ tail).drop k = rest.drop k ++ [13, 10] ++ encodeAll ws ++ tail := by
            rw [List.append_assoc, List.append_assoc, List.drop_append_of_le_length hk2]
            simp [List.append_assoc]
          simp only [hk0, if_false, e1, e2]
        rw [hrd]
        simp only
        have hpend : Pending tail (CR.mk (rest.drop k ++ [13, 10] ++ encodeAll ws ++ tail) (rest.length - k) none
              (decide (rest.length - k = 0))) (rest.drop k ++ ws.flatten) := by
          by_cases hend : rest.length - k = 0
          · have hd : rest.drop k = [] := List.drop_eq_nil_of_le (by omega)
            rw [hd]
            simp only [hend, decide_true, List.nil_append]
            exact Pending.atEnd ws hw
          · simp only [hend, decide_false]
            have := Pending.inside (tail := tail) (rest.drop k) ws (by
              intro h; have := congrArg List.length h; simp at this; omega) hw
            simpa using this
        obtain ⟨got, d', g1, g2, g3, g4, g5⟩ := ih _ (blen - (rest.take k).length) (out ++ rest.take k) _ (by
          simp at hlen ⊢; omega) hpend
        refine ⟨rest.take k ++ got, d', by rw [g1]; simp, ?_, ?_, g4, ?_⟩
        · rw [List.append_assoc, ← g2, ← List.append_assoc, List.take_append_drop]
        · simp at g3 ⊢; omega
        · intro _; left; simp; omega
    -- between chunks
    have between : ∀ (ws : List Bytes), (∀ w ∈ ws, w.length < 2 ^ 64) → (encodeAll ws ++ tail).length < fuel + 1 →
        let s1 : CR := { rem := encodeAll ws ++ tail }
        let res := if out.length > 0 ∧ (env fuel).header = false then (out, s1) else
          readLoop env fuel (beginChunk s1) blen out
        (encodeAll ws ++ tail).length + 1 < fuel + 1 →
        ∃ got d', res.1 = out ++ got ∧ ws.flatten = got ++ d' ∧ got.length ≤ blen ∧ Pending tail res.2 d' ∧
          (0 < blen → (out ++ got).length > 0 ∨ res.2.err = some .eof) := by
      intro ws hw _ s1 res hlen
      by_cases hb : out.length > 0 ∧ (env fuel).header = false
      · simp only [res, hb, and_self, if_true]
        exact ⟨[], ws.flatten, by simp, by simp, by simp, Pending.between ws hw, fun _ => Or.inl (by simp; omega)⟩
      · simp only [res, hb, if_false]
        obtain ⟨b1, b2, b3⟩ := begin_spec tail ws hw
        exact ih (beginChunk s1) blen out _ (by show (beginChunk s1).rem.length + 1 < fuel; have : (beginChunk s1).rem.length < _ := b2; omega) b1
    cases hp with
    | finished => 
      refine ⟨[], [], ?_, by simp, by simp, ?_, ?_⟩
      · simp [readLoop]
      · simp [readLoop]; exact Pending.finished
      · intro _; right; simp [readLoop]
    | between ws hw =>
      have := between ws hw (by simp at hf ⊢; omega) (by simp at hf ⊢; omega)
      simpa [readLoop, footer] using this
    | inside rest ws hne hw =>
      have := inner rest ws 0 hne hw (by simp at hf ⊢; omega)
      have hn : ¬ rest.length = 0 := by
        intro h; exact hne (List.length_eq_zero_iff.1 h)
      simpa [readLoop, footer, hn, hne] using this
    | atEnd ws hw =>
      by_cases hlow : out.length > 0 ∧ (env fuel).low = true
      · have hlow' : 0 < out.length := hlow.1
        refine ⟨[], ws.flatten, ?_, by simp, by simp, ?_, ?_⟩
        · simp [readLoop, footer, hlow.2, hlow']
        · simp [readLoop, footer, hlow.2, hlow']
          have := Pending.atEnd (tail := tail) ws hw
          simpa using this
        · intro _; left; simp; omega
      · have := between ws hw (by simp at hf ⊢; omega) (by simp at hf ⊢; omega)
        have red : readLoop env (fuel + 1) { rem := [13, 10] ++ encodeAll ws ++ tail, checkEnd := true } blen out =
            if out.length > 0 ∧ (env fuel).header = false then (out, { rem := encodeAll ws ++ tail }) else
              readLoop env fuel (beginChunk { rem := encodeAll ws ++ tail }) blen out := by
          conv => lhs; unfold readLoop
          simp only [footer, hlow, if_true, if_false, List.cons_append, List.nil_append, and_self, ne_eq,
            not_true_eq_false, Bool.false_eq_true]
        rw [red]
        exact this

theorem read_spec (env : Nat → Choice) (tail : Bytes) (s : CR) (blen : Nat) (d : Bytes) (hp : Pending tail s d) :
    ∃ d', d = (read env s blen).1 ++ d' ∧ (read env s blen).1.length ≤ blen ∧ Pending tail (read env s blen).2 d' ∧
      (0 < blen → (read env s blen).1.length > 0 ∨ (read env s blen).2.err = some .eof) := by
  obtain ⟨got, d', g1, g2, g3, g4, g5⟩ := readLoop_spec env tail (s.rem.length + 2) s blen [] d (by omega) hp
  have : (read env s blen).1 = got := by unfold read; rw [g1]; simp
  rw [this]
  exact ⟨d', g2, g3, g4, by simpa [read] using g5⟩

theorem pending_no_err {tail : Bytes} {s : CR} {d : Bytes} (hp : Pending tail s d) :
    s.err = none ∨ (s.err = some .eof ∧ d = [] ∧ s.rem = tail) := by
  cases hp with
  | finished => exact Or.inr ⟨rfl, rfl, rfl⟩
  | _ => exact Or.inl rfl

/-! ## Theorems -/

/-- **C31, round trip.**  For any writes, any buffer sizes of the reads and any behaviour of the underlying
reader: what the reads return is a prefix of the concatenation of the writes, in order and without loss;
no error other than end of stream occurs; end of stream is reported exactly when everything was returned,
and then whatever follows the chunked body is unread. -/
theorem chunked_roundtrip (ws : List Bytes) (hw : ∀ w ∈ ws, w.length < 2 ^ 64) (tail : Bytes)
    (rs : List (Nat × (Nat → Choice))) :
    ∃ d', ws.flatten = (reads { rem := encodeAll ws ++ tail } rs).1 ++ d' ∧
      ((reads { rem := encodeAll ws ++ tail } rs).2.err = none ∨
       ((reads { rem := encodeAll ws ++ tail } rs).2.err = some .eof ∧ d' = [] ∧
        (reads { rem := encodeAll ws ++ tail } rs).2.rem = tail)) := by
  have key : ∀ (s : CR) (d : Bytes), Pending tail s d → ∃ d', d = (reads s rs).1 ++ d' ∧ Pending tail (reads s rs).2 d' := by
    induction rs with
    | nil => intro s d hp; exact ⟨d, by simp [reads], hp⟩
    | cons x rs ih =>
      intro s d hp
      obtain ⟨b, env⟩ := x
      obtain ⟨d1, h1, _, h2, _⟩ := read_spec env tail s b d hp
      obtain ⟨d2, h3, h4⟩ := ih _ d1 h2
      exact ⟨d2, by simp only [reads]; rw [h1, h3]; simp, h4⟩
  obtain ⟨d', h1, h2⟩ := key _ _ (Pending.between (tail := tail) ws hw)
  exact ⟨d', h1, pending_no_err h2⟩

/-- **C31, progress.**  Enough reads with nonempty buffers return everything and report end of stream. -/
theorem chunked_complete (ws : List Bytes) (hw : ∀ w ∈ ws, w.length < 2 ^ 64) (tail : Bytes)
    (rs : List (Nat × (Nat → Choice))) (hpos : ∀ r ∈ rs, 0 < r.1) (hn : ws.flatten.length < rs.length) :
    (reads { rem := encodeAll ws ++ tail } rs).1 = ws.flatten ∧
    (reads { rem := encodeAll ws ++ tail } rs).2 = { rem := tail, err := some .eof } := by
  have fin : ∀ (rs : List (Nat × (Nat → Choice))), reads { rem := tail, err := some .eof } rs =
      ([], { rem := tail, err := some .eof }) := by
    intro rs
    induction rs with
    | nil => rfl
    | cons x rs ih =>
      have : ∀ env b, read env { rem := tail, err := some .eof } b = ([], { rem := tail, err := some .eof }) := by
        intro env b; simp [read, readLoop]
      simp only [reads, this, ih]; rfl
  have finished : ∀ {s d}, Pending tail s d → s.err = some .eof → s = { rem := tail, err := some .eof } ∧ d = [] := by
    intro s d hp he
    cases hp with
    | finished => exact ⟨rfl, rfl⟩
    | _ => simp at he
  have key : ∀ (rs : List (Nat × (Nat → Choice))) (s : CR) (d : Bytes), (∀ r ∈ rs, 0 < r.1) → d.length < rs.length →
      Pending tail s d → (reads s rs).1 = d ∧ (reads s rs).2 = { rem := tail, err := some .eof } := by
    intro rs
    induction rs with
    | nil => intro s d _ h; simp at h
    | cons x rs ih =>
      intro s d hpos hn hp
      obtain ⟨b, env⟩ := x
      obtain ⟨d1, h1, _, h2, h3⟩ := read_spec env tail s b d hp
      simp only [reads]
      by_cases he : (read env s b).2.err = some .eof
      · obtain ⟨e1, e2⟩ := finished h2 he
        rw [e1, fin]
        subst e2
        simp at h1
        exact ⟨by simp [h1], rfl⟩
      · have hgt : (read env s b).1.length > 0 := by
          rcases h3 (hpos (b, env) (by simp)) with h | h
          · exact h
          · exact absurd h he
        have hlen := congrArg List.length h1
        simp at hlen hn
        obtain ⟨i1, i2⟩ := ih _ d1 (fun r hr => hpos r (by simp [hr])) (by omega) h2
        exact ⟨by rw [i1, ← h1], i2⟩
  exact key rs _ _ hpos hn (Pending.between (tail := tail) ws hw)

/-- Non-vacuity: two writes (one empty write between), three-byte reads, `X` after the body. -/
example : encodeAll [[1, 2, 3, 4], [], [5]] = [52, 13, 10, 1, 2, 3, 4, 13, 10, 49, 13, 10, 5, 13, 10, 48, 13, 10] := by
  have h4 : hexStr 4 = [52] := by unfold hexStr; decide
  have h1 : hexStr 1 = [49] := by unfold hexStr; decide
  simp [encodeAll, encode, h4, h1]

example : (reads { rem := [52, 13, 10, 1, 2, 3, 4, 13, 10, 49, 13, 10, 5, 13, 10, 48, 13, 10] ++ [88] }
    [(3, fun _ => ⟨true, true, 9⟩), (3, fun _ => ⟨false, true, 9⟩), (3, fun _ => ⟨false, true, 9⟩)]) =
    ([1, 2, 3, 4, 5], { rem := [88], err := some .eof }) := by decide

/-- C31, lenient in reading: blanks after the size (some servers pad it) and extensions are skipped. The size itself is anything
without blanks, semicolons and newlines. -/
theorem size_line_lenient (v sp ext r : Bytes) (hv : ∀ b ∈ v, b ≠ 32 ∧ b ≠ 9 ∧ b ≠ 10 ∧ b ≠ 13 ∧ b ≠ 59) (hne : v ≠ [])
    (hsp : ∀ b ∈ sp, b = 32 ∨ b = 9) (hext : ∀ b ∈ ext, b ≠ 10) (hlen : v.length + sp.length + ext.length < 4093) :
    readChunkLine (v ++ sp ++ [13, 10] ++ r) = .ok (v, r) ∧
    readChunkLine (v ++ 59 :: ext ++ [13, 10] ++ r) = .ok (v, r) := by
  have trimSp : ∀ (l w : Bytes), (∀ b ∈ w, isSpace b = true) → trim (l ++ w) = trim l := by
    intro l w hw
    unfold trim
    rw [List.reverse_append, List.dropWhile_append_of_pos (by intro b hb; exact hw b (by simpa using hb))]
  have trimId : ∀ l : Bytes, (h : l ≠ []) → isSpace (l.getLast h) = false → trim l = l := by
    intro l h hl
    unfold trim
    obtain ⟨a, b, rfl⟩ : ∃ a b, l = a ++ [b] := ⟨l.dropLast, l.getLast h, (List.dropLast_concat_getLast h).symm⟩
    have hb : isSpace b = false := by simpa using hl
    rw [List.reverse_append, List.reverse_singleton, List.singleton_append, List.dropWhile_cons, hb]
    simp
  have vsp : ∀ b ∈ v, isSpace b = false := by
    intro b hb
    have := hv b hb
    simp [isSpace, this.1, this.2.1, this.2.2.1, this.2.2.2.1]
  have v59 : ∀ b ∈ v, b ≠ 59 := fun b hb => (hv b hb).2.2.2.2
  have v10 : (10 : UInt8) ∉ v := fun h => (hv _ h).2.2.1 rfl
  constructor
  · have e : v ++ sp ++ [13, 10] ++ r = (v ++ sp ++ [13]) ++ 10 :: r := by simp
    have h10 : (10 : UInt8) ∉ v ++ sp ++ [13] := by
      simp only [List.mem_append, not_or, List.mem_singleton]
      refine ⟨⟨v10, fun h => ?_⟩, by decide⟩
      rcases hsp _ h with h | h <;> exact absurd h (by decide)
    rw [e]
    unfold readChunkLine
    rw [cutLine_append h10]
    have hl : ¬ ((v ++ sp ++ [13] ++ [10]).length ≥ 4096) := by simp only [List.length_append, List.length_singleton]; omega
    dsimp only
    rw [if_neg hl, List.append_assoc, List.append_assoc, trimSp v (sp ++ ([13] ++ [10])), trimId v hne (vsp _ (List.getLast_mem hne)), cutSemi_of v59]
    intro b hb
    simp only [List.mem_append, List.mem_singleton] at hb
    rcases hb with hb | rfl | rfl
    · rcases hsp b hb with rfl | rfl <;> decide
    · decide
    · decide
  · have e : v ++ 59 :: ext ++ [13, 10] ++ r = (v ++ 59 :: ext ++ [13]) ++ 10 :: r := by simp
    have h10 : (10 : UInt8) ∉ v ++ 59 :: ext ++ [13] := by
      simp only [List.mem_append, List.mem_cons, not_or, List.mem_singleton]
      refine ⟨⟨v10, by decide, fun h => hext _ h rfl⟩, by decide, ?_⟩
      simp
    rw [e]
    unfold readChunkLine
    rw [cutLine_append h10]
    have hl : ¬ ((v ++ 59 :: ext ++ [13] ++ [10]).length ≥ 4096) := by
      simp only [List.length_append, List.length_cons, List.length_singleton, List.length_nil]; omega
    dsimp only
    rw [if_neg hl]
    have hcut : ∀ w : Bytes, cutSemi (v ++ 59 :: w) = v := by
      intro w
      unfold cutSemi
      rw [List.takeWhile_append_of_pos (by intro b hb; simpa using v59 b hb)]
      simp
    have hpre : ∀ w : Bytes, ∃ w', trim (v ++ 59 :: w) = v ++ 59 :: w' := by
      intro w
      unfold trim
      rw [List.reverse_append, List.reverse_cons, List.append_assoc]
      have hd : ∀ u : Bytes, ∃ u', (u ++ ([59] ++ v.reverse)).dropWhile isSpace = u' ++ ([59] ++ v.reverse) := by
        intro u
        induction u with
        | nil => exact ⟨[], by simp [List.dropWhile_cons, isSpace]⟩
        | cons b u ih =>
          rw [List.cons_append, List.dropWhile_cons]
          cases isSpace b with
          | true => simpa using ih
          | false => exact ⟨b :: u, by simp⟩
      obtain ⟨u', hu⟩ := hd w.reverse
      rw [hu]
      exact ⟨u'.reverse, by simp⟩
    rw [show v ++ 59 :: ext ++ [13] ++ [10] = v ++ 59 :: (ext ++ [13, 10]) by simp]
    obtain ⟨w', hw⟩ := hpre (ext ++ [13, 10])
    rw [hw, hcut]

/-- "5 \t" and "5;a=b" with a newline are read as "5". -/
example : readChunkLine [53, 32, 9, 13, 10, 120] = .ok ([53], [120]) ∧ readChunkLine [53, 59, 97, 61, 98, 13, 10, 120] = .ok ([53], [120]) := by decide

end Verif.Client.Chunked
