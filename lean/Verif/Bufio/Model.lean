import Verif.Common
/-!
# Model of `libcs/bufio` (Reader and LimitedReader)

The underlying `io.Reader` is adversarial: a script of read results.  Positions into the buffer are
kept as the read index `r` and the window `data = buf[r:w]` (so `w = r + data.length`); the bytes of
`buf` outside the window are not kept, except that `UnreadByte` writes the byte before the window.
An `Option` result `none` means "the Go code panics or never returns".
-/
namespace Verif.Bufio
open Verif

/-- Error values a reader can return (libcs/bufio/bufio.go:22-27, io.EOF, io.ErrNoProgress). `other` are the
errors of the underlying reader (timeouts, resets). -/
inductive Err where
  | eof | noProgress | bufferFull | invalidUnread
  | other (n : Nat)
deriving DecidableEq, Repr

/-- Future results of the underlying reader: each entry is what one `Read` could deliver, with an
optional error. When the script is exhausted the reader returns `io.EOF`. -/
abbrev Script := List (Bytes × Option Err)

/-- One `rd.Read(p)` with `len(p) = m`: a chunk longer than `m` is delivered in pieces, its error
with the last piece. (io.Reader contract.) -/
def srcRead : Script → Nat → Bytes × Option Err × Script
  | [], _ => ([], some .eof, [])
  | (bs, e) :: rest, m =>
    if bs.length ≤ m then (bs, e, rest) else (bs.take m, none, (bs.drop m, e) :: rest)

/-- libcs/bufio/bufio.go:32-39 `Reader` (lastRuneSize is only used by the rune functions: `Verif.Bufio.ReadRune`). -/
structure Rd where
  cap : Nat
  r : Nat
  data : Bytes
  err : Option Err
  last : Option UInt8
  src : Script
deriving DecidableEq, Repr

/-- libcs/bufio/bufio.go:47-64, 75-82 `NewReaderSize`/`reset`, libcs/bufio/reader.go:112-116 `NewReaderWithBuf` + `Reset`. -/
def Rd.new (cap : Nat) (src : Script) : Rd := ⟨cap, 0, [], none, none, src⟩

/-- libcs/bufio/bufio.go:100-114: the read loop of `fill`, at most `maxConsecutiveEmptyReads` = 100 attempts. -/
def fillLoop : Nat → Rd → Rd
  | 0, s => { s with err := some .noProgress }
  | i + 1, s =>
    let (bs, e, src') := srcRead s.src (s.cap - s.data.length)
    let s' := { s with data := s.data ++ bs, src := src' }
    match e with
    | some e => { s' with err := some e }
    | none => if bs.length > 0 then s' else fillLoop i s'

/-- libcs/bufio/bufio.go:87-115 `fill`: slide, panic if full, read. -/
def fill (s : Rd) : Option Rd :=
  let s := { s with r := 0 }
  if s.data.length ≥ s.cap then none else some (fillLoop 100 s)

/-- libcs/bufio/bufio.go:117-121 `readErr`. -/
def readErr (s : Rd) : Option Err × Rd := (s.err, { s with err := none })

/-- libcs/bufio/bufio.go:138-140: the loop of `Peek`. Fuel: see `peekLoop_total`. -/
def peekLoop : Nat → Nat → Rd → Option Rd
  | 0, _, _ => none
  | f + 1, n, s =>
    if s.data.length < n ∧ s.data.length < s.cap ∧ s.err = none then
      match fill s with
      | none => none
      | some s' => peekLoop f n s'
    else some s

/-- libcs/bufio/bufio.go:130-159 `Peek(n)`, n ≥ 0. -/
def peek (n : Nat) (s : Rd) : Option ((Bytes × Option Err) × Rd) :=
  match peekLoop (s.cap + 2) n { s with last := none } with
  | none => none
  | some s =>
    if n > s.cap then some ((s.data, some .bufferFull), s)
    else if s.data.length < n then
      let (e, s') := readErr s
      some ((s.data, some (e.getD .bufferFull)), s')
    else some ((s.data.take n, none), s)

/-- libcs/bufio/bufio.go:174-192: the loop of `Discard`. -/
def discardLoop : Nat → Nat → Nat → Rd → Option ((Nat × Option Err) × Rd)
  | 0, _, _, _ => none
  | f + 1, n, remain, s =>
    match (if s.data.length = 0 then fill s else some s) with
    | none => none
    | some s =>
      let skip := min s.data.length remain
      let s := { s with r := s.r + skip, data := s.data.drop skip }
      let remain := remain - skip
      if remain = 0 then some ((n, none), s)
      else if s.err ≠ none then
        let (e, s') := readErr s
        some ((n - remain, e), s')
      else discardLoop f n remain s

/-- libcs/bufio/bufio.go:164-193 `Discard(n)`, n ≥ 0. (It does not invalidate `lastByte`.) -/
def discard (n : Nat) (s : Rd) : Option ((Nat × Option Err) × Rd) :=
  if n = 0 then some ((0, none), s) else discardLoop (n + 1) n n s

/-- libcs/bufio/bufio.go:198-243 `Read(p)`, `len(p) = m`; the result carries the bytes put in `p`. -/
def read (m : Nat) (s : Rd) : (Bytes × Option Err) × Rd :=
  if m = 0 then
    if s.data.length > 0 then (([], none), s)
    else (([], s.err), { s with err := none })
  else if s.data.length = 0 then
    if s.err ≠ none then (([], s.err), { s with err := none })
    else if m ≥ s.cap then
      let (bs, e, src') := srcRead s.src m
      ((bs, e), { s with src := src', err := none,
                          last := if bs.length > 0 then bs.getLast? else s.last })
    else
      let (bs, e, src') := srcRead s.src s.cap
      if bs.length = 0 then (([], e), { s with r := 0, src := src', err := none })
      else
        ((bs.take m, none),
          { s with r := min m bs.length, data := bs.drop m, err := e, src := src',
                   last := (bs.take m).getLast? })
  else
    ((s.data.take m, none),
      { s with r := s.r + min m s.data.length, data := s.data.drop m,
               last := (s.data.take m).getLast? })

/-- libcs/bufio/bufio.go:249-254: the loop of `ReadByte`. -/
def readByteLoop : Nat → Rd → Option (Except Err UInt8 × Rd)
  | 0, _ => none
  | f + 1, s =>
    match s.data with
    | c :: rest => some (.ok c, { s with r := s.r + 1, data := rest, last := some c })
    | [] =>
      match s.err with
      | some e => some (.error e, { s with err := none })
      | none =>
        match fill s with
        | none => none
        | some s' => readByteLoop f s'

/-- libcs/bufio/bufio.go:247-259 `ReadByte`. -/
def readByte (s : Rd) : Option (Except Err UInt8 × Rd) := readByteLoop 2 s

/-- libcs/bufio/bufio.go:266-281 `UnreadByte`. -/
def unreadByte (s : Rd) : Option Err × Rd :=
  match s.last with
  | none => (some .invalidUnread, s)
  | some c =>
    if s.r = 0 ∧ s.data.length > 0 then (some .invalidUnread, s)
    else (none, { s with r := s.r - 1, data := c :: s.data, last := none })

/-- bytes.IndexByte from a start offset: index of the first `d` in `bs` at or after `s`. -/
def indexFrom (d : UInt8) (s : Nat) (bs : Bytes) : Option Nat :=
  ((bs.drop s).idxOf? d).map (· + s)

/-- libcs/bufio/bufio.go:363-366: remember the last byte of a non-empty line. -/
def setLast (line : Bytes) (s : Rd) : Rd :=
  if line.length > 0 then { s with last := line.getLast? } else s

/-- libcs/bufio/bufio.go:332-360: the loop of `ReadSlice`; `st` is the search start index. -/
def readSliceLoop : Nat → UInt8 → Nat → Rd → Option ((Bytes × Option Err) × Rd)
  | 0, _, _, _ => none
  | f + 1, d, st, s =>
    match indexFrom d st s.data with
    | some i => some ((s.data.take (i + 1), none), { s with r := s.r + i + 1, data := s.data.drop (i + 1) })
    | none =>
      match s.err with
      | some e => some ((s.data, some e), { s with r := s.r + s.data.length, data := [], err := none })
      | none =>
        if s.data.length ≥ s.cap then
          some ((s.data, some .bufferFull), { s with r := s.r + s.data.length, data := [] })
        else
          match fill s with
          | none => none
          | some s' => readSliceLoop f d s.data.length s'

/-- libcs/bufio/bufio.go:331-369 `ReadSlice(delim)`. -/
def readSlice (d : UInt8) (s : Rd) : Option ((Bytes × Option Err) × Rd) :=
  (readSliceLoop (s.cap + 2) d 0 s).map fun ((line, e), s') => ((line, e), setLast line s')

/-! ## LimitedReader (reader.go) -/

/-- libcs/bufio/reader.go:23-25 `LimitedReader`. `N` is an int64 the callers set from an unsigned frame length. -/
structure Lim where
  rd : Rd
  n : Nat
deriving DecidableEq, Repr

/-- Behaviour of an `io.Writer` obeying its contract, one entry per `Write` call: `none` accepts the
whole slice, `some k` accepts `min k len(p)` bytes and returns an error. Exhausted script: accepts. -/
abbrev WScript := List (Option Nat)

/-- One `w.Write(p)`: bytes accepted, whether it failed. -/
def wrWrite : WScript → Bytes → Bytes × Bool × WScript
  | [], p => (p, false, [])
  | none :: ws, p => (p, false, ws)
  | some k :: ws, p => (p.take k, true, ws)

/-- libcs/bufio/reader.go:34-43 `LimitedReader.Read`. -/
def Lim.read (m : Nat) (l : Lim) : (Bytes × Option Err) × Lim :=
  if l.n = 0 then (([], some .eof), l)
  else
    let (res, rd') := Bufio.read (min m l.n) l.rd
    (res, ⟨rd', l.n - res.1.length⟩)

/-- libcs/bufio/reader.go:93-108 `LimitedReader.writeBuf`: bytes handed over, whether the write failed. -/
def Lim.writeBuf (l : Lim) (w : WScript) : Bytes × Bool × Lim × WScript :=
  let (bs, failed, w') := wrWrite w (l.rd.data.take l.n)
  (bs, failed, ⟨{ l.rd with r := l.rd.r + bs.length, data := l.rd.data.drop bs.length }, l.n - bs.length⟩, w')

/-- Outcome of `WriteTo`: nil, a reader error, or a (wrapped) writer error. -/
inductive WErr where
  | nil | read (e : Err) | write
deriving DecidableEq, Repr

/-- libcs/bufio/reader.go:64-76: the loop of `WriteTo` and its end. -/
def Lim.writeToLoop : Nat → Bytes → Lim → WScript → Option (Bytes × WErr × Lim × WScript)
  | 0, _, _, _ => none
  | f + 1, acc, l, w =>
    if l.rd.data.length > 0 then
      let (bs, failed, l, w) := l.writeBuf w
      if failed then some (acc ++ bs, .write, l, w)
      else if l.n = 0 then some (acc ++ bs, .nil, l, w)
      else
        match fill l.rd with
        | none => none
        | some rd' => writeToLoop f (acc ++ bs) { l with rd := rd' } w
    else
      match l.rd.err with
      | none => some (acc, .nil, l, w)
      | some .eof => some (acc, .nil, { l with rd := { l.rd with err := none } }, w)
      | some e => some (acc, .read e, { l with rd := { l.rd with err := none } }, w)

/-- libcs/bufio/reader.go:51-76 `LimitedReader.WriteTo(w)`: all bytes handed to the writer, and the error. -/
def Lim.writeTo (l : Lim) (w : WScript) : Option (Bytes × WErr × Lim × WScript) :=
  if l.n = 0 then some ([], .nil, l, w)
  else
    let (bs, failed, l1, w1) := l.writeBuf w
    if failed then some (bs, .write, l1, w1)
    else if l1.n = 0 then some (bs, .nil, l1, w1)
    else
      match (if l1.rd.data.length < l1.rd.cap then fill l1.rd else some l1.rd) with
      | none => none
      | some rd' => writeToLoop (l1.n + 2) bs { l1 with rd := rd' } w1

/-- libcs/bufio/reader.go:134-165: the loop of `LimitedReader.ReadSlice`. -/
def Lim.readSliceLoop : Nat → UInt8 → Nat → Lim → Option ((Bytes × Option Err) × Rd)
  | 0, _, _, _ => none
  | f + 1, d, st, l =>
    let win := l.rd.data.take l.n
    match indexFrom d st win with
    | some i =>
      some ((l.rd.data.take (i + 1), none), { l.rd with r := l.rd.r + i + 1, data := l.rd.data.drop (i + 1) })
    | none =>
      match l.rd.err with
      | some e =>
        some ((win, some e), { l.rd with r := l.rd.r + win.length, data := l.rd.data.drop win.length, err := none })
      | none =>
        if win.length ≥ l.n then
          some ((win, some .eof), { l.rd with r := l.rd.r + win.length, data := l.rd.data.drop win.length })
        else if l.rd.data.length ≥ l.rd.cap then
          some ((l.rd.data, some .bufferFull), { l.rd with r := l.rd.r + l.rd.data.length, data := [] })
        else
          match fill l.rd with
          | none => none
          | some rd' => readSliceLoop f d win.length { l with rd := rd' }

/-- libcs/bufio/reader.go:133-176 `LimitedReader.ReadSlice(delim)`. -/
def Lim.readSlice (d : UInt8) (l : Lim) : Option ((Bytes × Option Err) × Lim) :=
  (readSliceLoop (l.rd.cap + 2) d 0 l).map fun ((line, e), rd') =>
    ((line, e), ⟨setLast line rd', l.n - line.length⟩)

/-! ## Operation sequences -/

/-- The calls a user of the reader can make. -/
inductive Op where
  | peek (n : Nat) | discard (n : Nat) | read (m : Nat) | readByte | unreadByte | readSlice (d : UInt8)
  | buffered
deriving DecidableEq, Repr

/-- What a call returns. -/
inductive Out where
  | bytes (bs : Bytes) (e : Option Err)
  | count (n : Nat) (e : Option Err)
  | byte (r : Except Err UInt8)
  | unread (e : Option Err)
deriving DecidableEq, Repr

/-- One call. -/
def step (op : Op) (s : Rd) : Option (Out × Rd) :=
  match op with
  | .peek n => (peek n s).map fun ((b, e), s') => (.bytes b e, s')
  | .discard n => (discard n s).map fun ((k, e), s') => (.count k e, s')
  | .read m => let ((b, e), s') := read m s; some (.bytes b e, s')
  | .readByte => (readByte s).map fun (r, s') => (.byte r, s')
  | .unreadByte => let (e, s') := unreadByte s; some (.unread e, s')
  | .readSlice d => (readSlice d s).map fun ((b, e), s') => (.bytes b e, s')
  | .buffered => some (.count s.data.length none, s)

/-- A sequence of calls and their results. -/
def run : List Op → Rd → Option (List Out × Rd)
  | [], s => some ([], s)
  | op :: ops, s =>
    match step op s with
    | none => none
    | some (o, s') =>
      match run ops s' with
      | none => none
      | some (os, s'') => some (o :: os, s'')

end Verif.Bufio
