import Verif.Bufio.Lemmas
/-!
# C38: length-prefixed JSON over the standard streams

Go side: libcs/util/stdio.go:45-73 (also libcs/client/peerproc.go:152-177, the same code on the pipes of the
peer process). Rust side: bin/src/manager.rs:660-742, bin/src/peer/mod.rs:131-171.
A pipe is a script of chunks (`Verif.Bufio.Script`): what successive reads may deliver.
-/
set_option linter.unusedSimpArgs false
set_option linter.unusedVariables false
namespace Verif.Util.Stdio
open Verif Verif.Bufio

/-- libcs/util/stdio.go:66, bin/src/manager.rs:660. -/
def maxJson : Nat := 8 * 1024

/-- libcs/util/stdio.go:45-57 `WriteJson`, bin/src/manager.rs:684-701 `write_json`: the two writes (serialised by `writeMtx`).
`uint32(len(json))` is taken modulo 2^32. -/
def writeJson (json : Bytes) : List Bytes := [be32 (json.length % 4294967296), json]

/-- `io.ReadFull` / `read_exact` for `m` bytes: `none` is an error. -/
def readFull (m : Nat) : Script → Option (Bytes × Script)
  | [] => if m = 0 then some ([], []) else none
  | (bs, e) :: rest =>
    if m = 0 then some ([], (bs, e) :: rest)
    else if bs.length < m then
      match e with
      | some _ => none
      | none =>
        match readFull (m - bs.length) rest with
        | none => none
        | some (r, s) => some (bs ++ r, s)
    else if bs.length = m then some (bs, rest)
    else some (bs.take m, (bs.drop m, e) :: rest)

/-- First four bytes of the array `l`, zero where nothing was read. -/
def header (bs : Bytes) : Nat :=
  match bs ++ [0, 0, 0, 0] with
  | a :: b :: c :: d :: _ => rd32 a b c d
  | _ => 0

/-- libcs/util/stdio.go:59-73 `ReadJson`: one plain `Read` for the length, `ReadFull` for the body. -/
def readJsonGo (src : Script) : Option (Bytes × Script) :=
  let (bs, e, src') := srcRead src 4
  match e with
  | some _ => none
  | none =>
    let jl := header bs
    if jl > maxJson then none else readFull jl src'

/-- bin/src/manager.rs:662-682 `read_json`: `read_exact` for both parts (the JSON parsing is not modelled). -/
def readJsonRust (src : Script) : Option (Bytes × Script) :=
  match readFull 4 src with
  | none => none
  | some (h, src') => if header h > maxJson then none else readFull (header h) src'

/-- Value of a hexadecimal digit (`char::to_digit(16)`). -/
def hexVal (b : UInt8) : Option Nat :=
  if 48 ≤ b.toNat ∧ b.toNat ≤ 57 then some (b.toNat - 48)
  else if 97 ≤ b.toNat ∧ b.toNat ≤ 102 then some (b.toNat - 87)
  else if 65 ≤ b.toNat ∧ b.toNat ≤ 70 then some (b.toNat - 55)
  else none

def hexFold : Bytes → Nat → Option Nat
  | [], acc => some acc
  | b :: bs, acc =>
    match hexVal b with
    | none => none
    | some d => hexFold bs (acc * 16 + d)

/-- bin/src/manager.rs:718 `u32::from_str_radix(.., 16)` on the eight header bytes: an optional leading `+`. Eight
digits cannot overflow a u32. Bytes that are not UTF-8 become U+FFFD, which is not a digit. -/
def parseHex (h : Bytes) : Option Nat :=
  match h with
  | 43 :: t => if t = [] then none else hexFold t 0
  | t => if t = [] then none else hexFold t 0

/-- A digit of `{:x}`. -/
def hexDigit (n : Nat) : UInt8 := if n < 10 then UInt8.ofNat (48 + n) else UInt8.ofNat (87 + n)

/-- bin/src/manager.rs:740 `format!("{:08x}", l)` for a u32. -/
def hex8 (n : Nat) : Bytes :=
  [hexDigit (n / 268435456 % 16), hexDigit (n / 16777216 % 16), hexDigit (n / 1048576 % 16),
   hexDigit (n / 65536 % 16), hexDigit (n / 4096 % 16), hexDigit (n / 256 % 16), hexDigit (n / 16 % 16),
   hexDigit (n % 16)]

/-- bin/src/manager.rs:703-723 `read_hex_len_json`. -/
def readJsonHex (src : Script) : Option (Bytes × Script) :=
  match readFull 8 src with
  | none => none
  | some (h, src') =>
    match parseHex h with
    | none => none
    | some l => if l > maxJson then none else readFull l src'

/-- bin/src/manager.rs:725-742 `write_hex_len_json`. -/
def writeHex (json : Bytes) : List Bytes := [hex8 (json.length % 4294967296), json]

/-- Read `n` messages with `rd`. -/
def readMany (rd : Script → Option (Bytes × Script)) : Nat → Script → Option (List Bytes × Script)
  | 0, src => some ([], src)
  | n + 1, src =>
    match rd src with
    | none => none
    | some (m, src') =>
      match readMany rd n src' with
      | none => none
      | some (ms, s) => some (m :: ms, s)

/-! ## Specification -/

/-- What the writer puts on the pipe. -/
def wire (msgs : List Bytes) : Bytes := (msgs.flatMap writeJson).flatten

/-- The same for the hexadecimal framing. -/
def wireHex (msgs : List Bytes) : Bytes := (msgs.flatMap writeHex).flatten

/-- The pipe delivers data and no errors (`os.File.Read` never returns 0 bytes without an error). -/
def Deliver (src : Script) : Prop := ∀ c ∈ src, c.1 ≠ [] ∧ c.2 = none

/-- No boundary between two deliveries lies inside the four length bytes of a message. This is what a Unix
pipe guarantees, because the writer writes the four bytes in one call (writes up to PIPE_BUF are atomic). -/
def HeadersWhole (msgs : List Bytes) (src : Script) : Prop :=
  ∀ a b, src = a ++ b → ∀ pre m post, msgs = pre ++ m :: post →
    ¬ ((wire pre).length < (bytesOf a).length ∧ (bytesOf a).length < (wire pre).length + 4)

/-! ## Lemmas -/

theorem wire_cons (m : Bytes) (ms : List Bytes) : wire (m :: ms) = be32 (m.length % 4294967296) ++ (m ++ wire ms) := by
  simp [wire, writeJson]

theorem header_be32 {n : Nat} (h : n < 4294967296) (r : Bytes) : header (be32 n ++ r) = n := by
  simp only [header, be32, List.cons_append, List.nil_append]
  exact rd32_be32 h

/-- `src'` is what is left of `src` after `x`: same bytes, and every boundary of `src'` was a boundary of
`src`. -/
structure Left (x : Bytes) (src src' : Script) : Prop where
  bytes : bytesOf src = x ++ bytesOf src'
  clean : Deliver src'
  cut : ∀ a' b', src' = a' ++ b' → a' ≠ [] →
    ∃ a b, a ≠ [] ∧ src = a ++ b ∧ (bytesOf a).length = x.length + (bytesOf a').length

theorem Left.trans {x y : Bytes} {s1 s2 s3 : Script} (h1 : Left x s1 s2) (h2 : Left y s2 s3) : Left (x ++ y) s1 s3 := by
  refine ⟨by rw [h1.bytes, h2.bytes]; simp, h2.clean, ?_⟩
  intro a' b' e hne
  obtain ⟨a, b, ha, e2, hl⟩ := h2.cut a' b' e hne
  obtain ⟨a0, b0, ha0, e3, hl3⟩ := h1.cut a b e2 ha
  exact ⟨a0, b0, ha0, e3, by simp; omega⟩

theorem Deliver.tail {c : Bytes × Option Err} {r : Script} (h : Deliver (c :: r)) : Deliver r :=
  fun d hd => h d (List.mem_cons_of_mem _ hd)

/-- A full read of `m` bytes succeeds when the pipe delivers at least that many. -/
theorem readFull_spec : ∀ (src : Script) (m : Nat) (x y : Bytes), Deliver src → bytesOf src = x ++ y →
    x.length = m → ∃ src', readFull m src = some (x, src') ∧ Left x src src' := by
  intro src
  induction src with
  | nil =>
    intro m x y hd hb hl
    have h0 : x = [] := by
      have := congrArg List.length hb; simp [bytesOf] at this
      exact List.eq_nil_of_length_eq_zero (by omega)
    subst h0
    have hm : m = 0 := by simpa using hl.symm
    subst hm
    refine ⟨[], by simp [readFull], ⟨by simp, hd, ?_⟩⟩
    intro a' b' e hne
    exact ⟨a', b', hne, e, by simp⟩
  | cons c rest ih =>
    obtain ⟨bs, er⟩ := c
    intro m x y hd hb hl
    have hc := hd _ List.mem_cons_self
    have her : er = none := hc.2
    subst her
    rw [bytesOf_cons] at hb
    dsimp only at hb
    unfold readFull
    by_cases h0 : m = 0
    · rw [if_pos h0]
      have hx : x = [] := List.eq_nil_of_length_eq_zero (by omega)
      subst hx
      exact ⟨_, rfl, ⟨by simp, hd, fun a' b' e hne => ⟨a', b', hne, e, by simp⟩⟩⟩
    rw [if_neg h0]
    by_cases h1 : bs.length < m
    · rw [if_pos h1]
      have hpre : bs ++ x.drop bs.length = x := by
        have := congrArg (List.take bs.length) hb
        rw [List.take_append_of_le_length (Nat.le_refl _), List.take_length,
          List.take_append_of_le_length (by omega)] at this
        conv => lhs; lhs; rw [this]
        exact List.take_append_drop _ _
      have hrest : bytesOf rest = x.drop bs.length ++ y := by
        rw [← hpre, List.append_assoc] at hb
        have h2 := List.append_cancel_left hb
        exact h2
      obtain ⟨s', h3, h4⟩ := ih (m - bs.length) (x.drop bs.length) y hd.tail hrest (by simp; omega)
      refine ⟨s', by simp only [h3]; rw [hpre], ?_⟩
      refine ⟨by rw [bytesOf_cons, h4.bytes, ← List.append_assoc]; dsimp only; rw [hpre], h4.clean, ?_⟩
      intro a' b' e hne
      obtain ⟨a, b, ha, e2, hl2⟩ := h4.cut a' b' e hne
      refine ⟨(bs, none) :: a, b, by simp, by rw [e2]; rfl, ?_⟩
      rw [bytesOf_cons]
      have : (x.drop bs.length).length = x.length - bs.length := by simp
      simp only [List.length_append]
      omega
    · rw [if_neg h1]
      by_cases h2 : bs.length = m
      · rw [if_pos h2]
        obtain ⟨e1, e2⟩ := List.append_inj hb (by omega)
        subst e1
        refine ⟨rest, rfl, ⟨by rw [bytesOf_cons], hd.tail, ?_⟩⟩
        intro a' b' e hne
        exact ⟨(bs, none) :: a', b', by simp, by rw [e]; rfl, by rw [bytesOf_cons]; simp⟩
      · rw [if_neg h2]
        have hx : bs.take m = x := by
          have := congrArg (List.take m) hb
          rw [List.take_append_of_le_length (by omega), List.take_append_of_le_length (by omega),
            List.take_of_length_le (l := x) (by omega)] at this
          exact this
        refine ⟨_, by rw [hx], ⟨?_, ?_, ?_⟩⟩
        · rw [bytesOf_cons, bytesOf_cons]
          dsimp only
          rw [← List.append_assoc]
          conv => rhs; lhs; lhs; rw [← hx]
          rw [List.take_append_drop]
        · intro d hd'
          cases hd' with
          | head => exact ⟨by simp; omega, rfl⟩
          | tail _ h => exact hd.tail d h
        · intro a' b' e hne
          cases a' with
          | nil => exact absurd rfl hne
          | cons c0 a'' =>
            simp only [List.cons_append, List.cons.injEq] at e
            refine ⟨(bs, none) :: a'', b', by simp, by rw [e.2]; rfl, ?_⟩
            rw [bytesOf_cons, bytesOf_cons, ← e.1]
            simp only [List.length_append, List.length_drop]
            omega

/-- The hypothesis on the message sizes, used by every framing. -/
def Fits (msgs : List Bytes) : Prop := ∀ m ∈ msgs, m.length ≤ maxJson

theorem Fits.mod {m : Bytes} (h : m.length ≤ maxJson) : m.length % 4294967296 = m.length :=
  Nat.mod_eq_of_lt (by have : maxJson = 8192 := rfl; omega)

/-- A script that delivers and still has bytes starts with a nonempty chunk. -/
theorem deliver_split {src : Script} {x : Bytes} (hd : Deliver src) (hb : bytesOf src = x) (hx : x ≠ []) :
    ∃ bs rest, src = (bs, none) :: rest ∧ bs ≠ [] := by
  cases src with
  | nil => simp [bytesOf] at hb; exact absurd hb hx
  | cons c rest =>
    obtain ⟨bs, e⟩ := c
    have := hd _ List.mem_cons_self
    exact ⟨bs, rest, by rw [show e = none from this.2], this.1⟩

theorem be32_cons (n : Nat) (r : Bytes) : be32 n ++ r ≠ [] := by simp [be32]

/-! ## Theorems -/

/-- Go reader, one message. -/
theorem readJsonGo_one {m tail : Bytes} {ms : List Bytes} {src : Script} (hd : Deliver src)
    (hw : HeadersWhole (m :: ms) src) (hm : m.length ≤ maxJson)
    (hb : bytesOf src = wire (m :: ms) ++ tail) :
    ∃ src', readJsonGo src = some (m, src') ∧ Deliver src' ∧ HeadersWhole ms src' ∧
      bytesOf src' = wire ms ++ tail := by
  rw [wire_cons, Fits.mod hm, List.append_assoc] at hb
  have hmod : m.length < 4294967296 := by have : maxJson = 8192 := rfl; omega
  obtain ⟨bs, rest, e, hne⟩ := deliver_split hd hb (be32_cons _ _)
  have h4 : 4 ≤ bs.length := by
    have := hw [(bs, none)] rest (by rw [e]; rfl) [] m ms rfl
    simp [wire, bytesOf] at this
    have hp : 0 < bs.length := List.length_pos_iff.2 hne
    omega
  -- the single read returns exactly the four bytes
  obtain ⟨s1, hr1, hl1⟩ := readFull_spec src 4 (be32 m.length) _ hd hb rfl
  have hread : srcRead src 4 = (be32 m.length, none, s1) := by
    subst e
    unfold readFull at hr1
    rw [if_neg (by decide), if_neg (by omega)] at hr1
    unfold srcRead
    dsimp only
    by_cases hx : bs.length = 4
    · rw [if_pos hx] at hr1
      rw [if_pos (by omega)]
      cases hr1; rfl
    · rw [if_neg hx] at hr1
      rw [if_neg (by omega)]
      simp only [Option.some.injEq, Prod.mk.injEq] at hr1
      rw [hr1.1, hr1.2]
  have hb1 : bytesOf s1 = m ++ (wire ms ++ tail) := by
    have h := hb
    rw [hl1.bytes] at h
    have := List.append_cancel_left h
    rw [this]; simp
  obtain ⟨s2, hr2, hl2⟩ := readFull_spec s1 m.length m _ hl1.clean hb1 rfl
  refine ⟨s2, ?_, hl2.clean, ?_, ?_⟩
  · unfold readJsonGo
    rw [hread]
    dsimp only
    have hh : header (be32 m.length) = m.length := by
      have := header_be32 hmod []
      simpa using this
    rw [hh, if_neg (by omega)]
    exact hr2
  · intro a b hs pre m' post hms
    by_cases ha : a = []
    · subst ha; simp [bytesOf]
    obtain ⟨a0, b0, -, e0, hl0⟩ := (hl1.trans hl2).cut a b hs ha
    have := hw a0 b0 e0 (m :: pre) m' post (by rw [hms]; rfl)
    rw [wire_cons] at this
    simp only [List.length_append, be32_length] at this hl0
    omega
  · have h := hb1
    rw [hl2.bytes] at h
    exact List.append_cancel_left h

/-- C38, Go: if the pipe never splits a length prefix (which is what pipes do for the four-byte writes of
the peer), then whatever the other boundaries are, `ReadJson` returns exactly the messages written, in order,
and leaves what follows them. -/
theorem go_reads_messages_partial (msgs : List Bytes) (tail : Bytes) : ∀ (src : Script), Fits msgs → Deliver src →
    HeadersWhole msgs src → bytesOf src = wire msgs ++ tail →
    ∃ src', readMany readJsonGo msgs.length src = some (msgs, src') ∧ bytesOf src' = tail := by
  induction msgs with
  | nil => intro src _ _ _ hb; exact ⟨src, rfl, by simpa [wire] using hb⟩
  | cons m ms ih =>
    intro src hf hd hw hb
    obtain ⟨s1, h1, hd1, hw1, hb1⟩ := readJsonGo_one hd hw (hf m List.mem_cons_self) hb
    obtain ⟨s2, h2, hb2⟩ := ih s1 (fun x hx => hf x (List.mem_cons_of_mem _ hx)) hd1 hw1 hb1
    refine ⟨s2, ?_, hb2⟩
    simp only [List.length_cons, readMany, h1, h2]

/-- C38, Rust: for every segmentation, `read_json` returns exactly the messages written, in order. -/
theorem rust_reads_messages (msgs : List Bytes) (tail : Bytes) : ∀ (src : Script), Fits msgs → Deliver src →
    bytesOf src = wire msgs ++ tail →
    ∃ src', readMany readJsonRust msgs.length src = some (msgs, src') ∧ bytesOf src' = tail := by
  induction msgs with
  | nil => intro src _ _ hb; exact ⟨src, rfl, by simpa [wire] using hb⟩
  | cons m ms ih =>
    intro src hf hd hb
    have hm := hf m List.mem_cons_self
    have hmod : m.length < 4294967296 := by have : maxJson = 8192 := rfl; omega
    rw [wire_cons, Fits.mod hm, List.append_assoc] at hb
    obtain ⟨s1, hr1, hl1⟩ := readFull_spec src 4 (be32 m.length) _ hd hb rfl
    have hb1 : bytesOf s1 = m ++ (wire ms ++ tail) := by
      rw [hl1.bytes] at hb
      rw [List.append_cancel_left hb]; simp
    obtain ⟨s2, hr2, hl2⟩ := readFull_spec s1 m.length m _ hl1.clean hb1 rfl
    have hb2 : bytesOf s2 = wire ms ++ tail := by
      rw [hl2.bytes] at hb1
      exact List.append_cancel_left hb1
    obtain ⟨s3, h3, hb3⟩ := ih s2 (fun x hx => hf x (List.mem_cons_of_mem _ hx)) hl2.clean hb2
    refine ⟨s3, ?_, hb3⟩
    have hh : header (be32 m.length) = m.length := by
      have := header_be32 hmod []
      simpa using this
    have h1 : readJsonRust src = some (m, s2) := by
      unfold readJsonRust
      rw [hr1]
      dsimp only
      rw [hh, if_neg (by omega)]
      exact hr2
    simp only [List.length_cons, readMany, h1, h3]

theorem hexVal_digit {n : Nat} (h : n < 16) : hexVal (hexDigit n) = some n := by
  have : n = 0 ∨ n = 1 ∨ n = 2 ∨ n = 3 ∨ n = 4 ∨ n = 5 ∨ n = 6 ∨ n = 7 ∨ n = 8 ∨ n = 9 ∨ n = 10 ∨ n = 11 ∨
    n = 12 ∨ n = 13 ∨ n = 14 ∨ n = 15 := by omega
  rcases this with h | h | h | h | h | h | h | h | h | h | h | h | h | h | h | h <;> subst h <;> decide

theorem hexDigit_ne_plus {n : Nat} (h : n < 16) : hexDigit n ≠ 43 := by
  intro e
  have := hexVal_digit h
  rw [e] at this
  exact absurd this (by simp [hexVal])

/-- The eight digits denote the length. -/
theorem parseHex_hex8 {n : Nat} (h : n < 4294967296) : parseHex (hex8 n) = some n := by
  unfold parseHex hex8
  split
  · rename_i t he
    simp only [List.cons.injEq] at he
    exact absurd he.1 (hexDigit_ne_plus (Nat.mod_lt _ (by decide)))
  · rw [if_neg (by simp)]
    simp only [hexFold, hexVal_digit (Nat.mod_lt _ (by decide : 0 < 16))]
    congr 1
    omega

theorem wireHex_cons (m : Bytes) (ms : List Bytes) :
    wireHex (m :: ms) = hex8 (m.length % 4294967296) ++ (m ++ wireHex ms) := by
  simp [wireHex, writeHex]

/-- C38, the manager's control socket (hexadecimal length): for every segmentation, `read_hex_len_json` returns
exactly the messages written, in order. -/
theorem hex_reads_messages (msgs : List Bytes) (tail : Bytes) : ∀ (src : Script), Fits msgs → Deliver src →
    bytesOf src = wireHex msgs ++ tail →
    ∃ src', readMany readJsonHex msgs.length src = some (msgs, src') ∧ bytesOf src' = tail := by
  induction msgs with
  | nil => intro src _ _ hb; exact ⟨src, rfl, by simpa [wireHex] using hb⟩
  | cons m ms ih =>
    intro src hf hd hb
    have hm := hf m List.mem_cons_self
    have hmod : m.length < 4294967296 := by have : maxJson = 8192 := rfl; omega
    rw [wireHex_cons, Fits.mod hm, List.append_assoc] at hb
    obtain ⟨s1, hr1, hl1⟩ := readFull_spec src 8 (hex8 m.length) _ hd hb rfl
    have hb1 : bytesOf s1 = m ++ (wireHex ms ++ tail) := by
      rw [hl1.bytes] at hb
      rw [List.append_cancel_left hb]; simp
    obtain ⟨s2, hr2, hl2⟩ := readFull_spec s1 m.length m _ hl1.clean hb1 rfl
    have hb2 : bytesOf s2 = wireHex ms ++ tail := by
      rw [hl2.bytes] at hb1
      exact List.append_cancel_left hb1
    obtain ⟨s3, h3, hb3⟩ := ih s2 (fun x hx => hf x (List.mem_cons_of_mem _ hx)) hl2.clean hb2
    refine ⟨s3, ?_, hb3⟩
    have h1 : readJsonHex src = some (m, s2) := by
      unfold readJsonHex
      rw [hr1]
      dsimp only
      rw [parseHex_hex8 hmod]
      dsimp only
      rw [if_neg (by omega)]
      exact hr2
    simp only [List.length_cons, readMany, h1, h3]

theorem readFull_shape : ∀ (src : Script) (m : Nat) (x : Bytes) (s : Script), readFull m src = some (x, s) →
    x.length = m := by
  intro src
  induction src with
  | nil =>
    intro m x s h
    unfold readFull at h
    by_cases h0 : m = 0
    · rw [if_pos h0] at h; cases h; simp [h0]
    · rw [if_neg h0] at h; cases h
  | cons c rest ih =>
    obtain ⟨bs, er⟩ := c
    intro m x s h
    unfold readFull at h
    by_cases h0 : m = 0
    · rw [if_pos h0] at h; cases h; simp [h0]
    rw [if_neg h0] at h
    by_cases h1 : bs.length < m
    · rw [if_pos h1] at h
      cases er with
      | some e => cases h
      | none =>
        dsimp only at h
        cases hr : readFull (m - bs.length) rest with
        | none => rw [hr] at h; cases h
        | some p =>
          obtain ⟨r, s'⟩ := p
          rw [hr] at h
          cases h
          have := ih _ _ _ hr
          simp only [List.length_append]; omega
    · rw [if_neg h1] at h
      by_cases h2 : bs.length = m
      · rw [if_pos h2] at h; cases h; exact h2
      · rw [if_neg h2] at h; cases h; simp; omega

/-- C38: no reader ever returns a message longer than 8192 bytes, whatever arrives (arbitrary bytes, any
segmentation, any errors). -/
theorem oversized_rejected (src s : Script) (m : Bytes)
    (h : readJsonGo src = some (m, s) ∨ readJsonRust src = some (m, s) ∨ readJsonHex src = some (m, s)) :
    m.length ≤ 8192 := by
  have hmax : maxJson = 8192 := rfl
  rcases h with h | h | h
  · unfold readJsonGo at h
    dsimp only at h
    split at h
    · cases h
    · by_cases hj : header (srcRead src 4).1 > maxJson
      · rw [if_pos hj] at h; cases h
      · rw [if_neg hj] at h
        have := readFull_shape _ _ _ _ h
        omega
  · unfold readJsonRust at h
    cases hr : readFull 4 src with
    | none => rw [hr] at h; cases h
    | some p =>
      rw [hr] at h
      dsimp only at h
      by_cases hj : header p.1 > maxJson
      · rw [if_pos hj] at h; cases h
      · rw [if_neg hj] at h
        have := readFull_shape _ _ _ _ h
        omega
  · unfold readJsonHex at h
    cases hr : readFull 8 src with
    | none => rw [hr] at h; cases h
    | some p =>
      rw [hr] at h
      dsimp only at h
      cases hp : parseHex p.1 with
      | none => rw [hp] at h; cases h
      | some l =>
        rw [hp] at h
        dsimp only at h
        by_cases hj : l > maxJson
        · rw [if_pos hj] at h; cases h
        · rw [if_neg hj] at h
          have := readFull_shape _ _ _ _ h
          omega

/-- A message longer than the limit, written by the peer, is refused by the Rust reader (and nothing of it is
taken for another message in that call). The writer does not check the limit. -/
theorem long_message_refused (m tail : Bytes) (src : Script) (hl : maxJson < m.length) (h32 : m.length < 4294967296)
    (hd : Deliver src) (hb : bytesOf src = wire [m] ++ tail) : readJsonRust src = none := by
  rw [wire_cons, Nat.mod_eq_of_lt h32, List.append_assoc] at hb
  obtain ⟨s1, hr1, hl1⟩ := readFull_spec src 4 (be32 m.length) _ hd hb rfl
  have hh : header (be32 m.length) = m.length := by
    have := header_be32 h32 []
    simpa using this
  unfold readJsonRust
  rw [hr1]
  dsimp only
  rw [hh, if_pos hl]

/-- C38 is false of the Go reader for an arbitrary segmentation: the single `Read` of the length is not
completed. Here `{}` arrives with its length prefix split after the first byte. `ReadJson` returns an empty
message, and the next call takes the rest of the prefix and the body for a length and fails. -/
theorem split_length_corrupts : ∃ src : Script, Deliver src ∧ bytesOf src = wire [ascii "{}"] ∧
    (∃ s', readJsonGo src = some ([], s') ∧ readJsonGo s' = none) := by
  refine ⟨[([0], none), ([0, 0, 2, 123, 125], none)], ?_, by decide, ?_⟩
  · intro c hc
    simp only [List.mem_cons, List.not_mem_nil, or_false] at hc
    rcases hc with h | h <;> subst h <;> exact ⟨by decide, rfl⟩
  · exact ⟨[([0, 0, 2, 123, 125], none)], by decide +kernel, by decide +kernel⟩

/-- Nonvacuity: two messages, with the body of the first delivered in two pieces. -/
example : ∃ s', readMany readJsonGo 2 [(be32 2 ++ ascii "{", none), (ascii "}" ++ be32 3, none), (ascii "abc", none)]
    = some ([ascii "{}", ascii "abc"], s') := ⟨[], by decide +kernel⟩

/-- Nonvacuity of the hypotheses of `go_reads_messages_partial`. -/
example : Fits [ascii "{}"] ∧ Deliver [(be32 2 ++ ascii "{", none), (ascii "}", none)] ∧
    HeadersWhole [ascii "{}"] [(be32 2 ++ ascii "{", none), (ascii "}", none)] := by
  refine ⟨by intro m hm; simp at hm; subst hm; decide, ?_, ?_⟩
  · intro c hc
    simp only [List.mem_cons, List.not_mem_nil, or_false] at hc
    rcases hc with h | h <;> subst h <;> exact ⟨by decide, rfl⟩
  · intro a b hab pre m post hm
    have hp : pre = [] := by
      cases pre with
      | nil => rfl
      | cons x xs => simp at hm
    subst hp
    cases a with
    | nil => simp [bytesOf]
    | cons c a' =>
      simp only [List.cons_append, List.cons.injEq] at hab
      rw [bytesOf_cons, ← hab.1]
      simp [wire, ascii]

end Verif.Util.Stdio
