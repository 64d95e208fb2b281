import Verif.Bufio.Model
/-!
# Model of `libcs/server/http.go` and the target selection of `handleHTTP`
-/
namespace Verif.Route
open Verif Verif.Bufio

/-- Outcomes of looking for a header. `noHost` is the `io.EOF` returned at the end of the header
block (libcs/server/http.go:69); `read e` are errors of the connection. -/
inductive HErr where
  | invalidLength | noHost | invalidProto | read (e : Err)
deriving DecidableEq, Repr

/-- Result of scanning the bytes buffered so far (libcs/server/http.go:53-75). -/
inductive Scan where
  | found (v : Bytes) | bad | endOfHeaders | more
deriving DecidableEq, Repr

/-- predef/const.go `MaxHTTPHeaderSize`. -/
def maxHeader : Nat := 2048

/-- libcs/server/http.go:53-75: one pass over the buffered bytes `hs`; `rest = hs[i:]`, `s` is the start of the
current line. `trim` is `bytes.TrimSpace` (a parameter: nothing about it is assumed). -/
def scanLoop (trim : Bytes → Bytes) (target hs : Bytes) : Bytes → Nat → Nat → Scan
  | [], _, _ => .more
  | b :: rest, i, s =>
    if b = 10 then
      if i - s ≥ target.length ∧ (hs.drop s).take target.length = target then
        let line := trim ((hs.take i).drop (s + target.length))
        if line.length < 1 ∨ line.length > 512 then .bad else .found line
      else if i ≥ 3 ∧ (hs.take (i + 1)).drop (i - 3) = [13, 10, 13, 10] then .endOfHeaders
      else scanLoop trim target hs rest (i + 1) (i + 1)
    else scanLoop trim target hs rest (i + 1) s

/-- libcs/server/http.go:45-83: the loop of `peekHeader`. Fuel is shown sufficient. -/
def peekHeaderLoop (trim : Bytes → Bytes) (target : Bytes) : Nat → Rd → Option (Except HErr Bytes × Rd)
  | 0, _ => none
  | f + 1, s =>
    let n := s.data.length
    match peek n s with
    | none => none
    | some ((_, some e), s) => some (.error (.read e), s)
    | some ((hs, none), s) =>
      match scanLoop trim target hs hs 0 0 with
      | .found v => some (.ok v, s)
      | .bad => some (.error .invalidLength, s)
      | .endOfHeaders => some (.error .noHost, s)
      | .more =>
        if n > maxHeader then some (.error .invalidProto, s)
        else
          match peek (n + 1) s with
          | none => none
          | some ((_, some e), s) => some (.error (.read e), s)
          | some ((_, none), s) => peekHeaderLoop trim target f s

/-- libcs/server/http.go:44-84 `peekHeader(reader, target)`. -/
def peekHeader (trim : Bytes → Bytes) (target : Bytes) (s : Rd) : Option (Except HErr Bytes × Rd) :=
  peekHeaderLoop trim target (maxHeader + 3) s

/-- `bytes.TrimSpace` on ASCII input, for the examples. -/
def trimAscii (b : Bytes) : Bytes :=
  let sp := fun c : UInt8 => c = 9 ∨ c = 10 ∨ c = 11 ∨ c = 12 ∨ c = 13 ∨ c = 32
  ((b.dropWhile (fun c => decide (sp c))).reverse.dropWhile (fun c => decide (sp c))).reverse

/-- libcs/server/http.go:36 `headerHostPrefix`. -/
def hostTarget : Bytes := ascii "Host: "

/-- libcs/server/http.go:86-102 `parseIDFromHost`; `none` is `ErrInvalidHost`. -/
def parseIDFromHost (host : Bytes) : Option Bytes :=
  match host.idxOf? 46 with
  | none => none
  | some i =>
    if i + 1 ≥ host.length then none
    else
      match (host.drop (i + 1)).idxOf? 46 with
      | none => none
      | some 0 => none
      | some (_ + 1) => some (host.take i)

/-- libcs/server/conn.go:289-311: the id an HTTP connection is routed to (before the registry lookup).
`muxHeader` is the configured header name. -/
def httpID (trim : Bytes → Bytes) (muxHeader : Bytes) (s : Rd) : Option (Option Bytes × Rd) :=
  if muxHeader = ascii "Host" then
    match peekHeader trim hostTarget s with
    | none => none
    | some (.error _, s) => some (none, s)
    | some (.ok host, s) =>
      if host.length < 1 then some (none, s)
      else match parseIDFromHost host with
        | none => some (none, s)
        | some id => if id.length < 1 then some (none, s) else some (some id, s)
  else
    match peekHeader trim (muxHeader ++ [58]) s with
    | none => none
    | some (.error _, s) => some (none, s)
    | some (.ok id, s) => if id.length < 1 then some (none, s) else some (some id, s)

end Verif.Route
