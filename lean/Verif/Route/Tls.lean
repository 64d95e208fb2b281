import Verif.Bufio.Model
/-!
# Model of `libcs/server/tls.go` `peekTLSHost`

Slice indexing is checked: an index outside the slice is the outcome `panic`.
-/
namespace Verif.Route
open Verif Verif.Bufio

/-- Outcome of parsing the ClientHello. -/
inductive Sni where
  | panic | fail | name (b : Bytes)
deriving DecidableEq, Repr

/-- `buf[i]`, panicking out of range. -/
def at1 (buf : Bytes) (i : Nat) (k : UInt8 → Sni) : Sni :=
  match buf[i]? with
  | none => .panic
  | some b => k b

/-- `uint16(buf[i+1]) | uint16(buf[i])<<8`. -/
def at2 (buf : Bytes) (i : Nat) (k : Nat → Sni) : Sni :=
  at1 buf (i + 1) fun lo => at1 buf i fun hi => k (rd16 hi lo)

/-- libcs/server/tls.go:78-121: the extension loop. `ext` is the Go `int extensionsLen`, which may go negative.
Fuel is shown sufficient (`.panic` on exhaustion). -/
def extLoop (buf : Bytes) : Nat → Nat → Int → Sni
  | 0, _, _ => .panic
  | f + 1, i, ext =>
    if ext > 0 then
      if i + 2 > buf.length then .fail
      else at2 buf i fun ty =>
        let i := i + 2
        let ext := ext - 2
        if i + 2 > buf.length then .fail
        else at2 buf i fun len =>
          let i := i + 2
          let ext := ext - 2
          if ty ≠ 0 then extLoop buf f (i + len) (ext - len)
          else
            let i := i + 2
            if i + 1 > buf.length then .fail
            else at1 buf i fun nt =>
              let i := i + 1
              if nt ≠ 0 then .fail
              else if i + 2 > buf.length then .fail
              else at2 buf i fun nl =>
                let i := i + 2
                if i + nl > buf.length then .fail
                else .name ((buf.take (i + nl)).drop i)
    else .fail

/-- libcs/server/tls.go:33-122: parsing the buffered bytes. -/
def parseHello (buf : Bytes) : Sni :=
  let n := buf.length
  if 0 + 1 > n then .fail
  else at1 buf 0 fun rt =>
    let i := 1
    if rt ≠ 22 then .fail
    else
      let i := i + (2 + 2)
      if i + 1 > n then .fail
      else at1 buf i fun ht =>
        let i := i + 1
        if ht ≠ 1 then .fail
        else
          let i := i + (3 + 2 + 32)
          if i + 1 > n then .fail
          else at1 buf i fun sl =>
            let i := i + (1 + sl.toNat)
            if i + 2 > n then .fail
            else at2 buf i fun cl =>
              let i := i + (2 + cl)
              if i + 1 > n then .fail
              else at1 buf i fun ml =>
                let i := i + (1 + ml.toNat)
                if i + 2 > n then .fail
                else at2 buf i fun el =>
                  extLoop buf (n + 1) (i + 2) el

/-- libcs/server/tls.go:23-122 `peekTLSHost(reader)`: only the bytes of the first underlying read are examined. -/
def peekTLSHost (s : Rd) : Option (Sni × Rd) :=
  match peek 1 s with
  | none => none
  | some ((_, some _), s) => some (.fail, s)
  | some ((_, none), s) =>
    match peek s.data.length s with
    | none => none
    | some ((_, some _), s) => some (.fail, s)
    | some ((buf, none), s) => some (parseHello buf, s)

end Verif.Route
