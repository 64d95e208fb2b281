import Verif.Common
import Verif.AMap
/-!
# Tunnel handshake: client encoder and server parser
-/
namespace Verif.Handshake
open Verif

/-- Scheme of a local service, `service.LocalURL.Scheme` after `parseServices` accepted it
(libcs/client/client.go:831-861): only these three survive. -/
inductive Scheme | http | https | tcp
  deriving DecidableEq, Repr

/-- The fields of a client service that the handshake uses (client/config.go `service`). -/
structure Service where
  scheme : Scheme
  hostPrefix : Bytes
  tcpPort : Nat          -- uint16
  tcpRandom : Bool
  deriving DecidableEq, Repr

/-! ## Client side: `gen` (libcs/client/conn.go:73-136) writes into a fixed buffer

`none` stands for the Go run-time panic "index out of range" raised by `buf[n] = ...` when `n`
is the buffer's length. `copy` truncates silently, as Go's does. -/

/-- `buf[n] = b; n++` on a buffer of capacity `cap` whose first `w.length` bytes are `w`. -/
def putByte (cap : Nat) (w : Bytes) (b : UInt8) : Option Bytes :=
  if w.length < cap then some (w ++ [b]) else none

/-- `n += copy(buf[n:], bs)`. -/
def copyBytes (cap : Nat) (w bs : Bytes) : Bytes := w ++ bs.take (cap - w.length)

/-- `buf[n] = byte(v >> 8); buf[n+1] = byte(v); n += 2` (libcs/client/conn.go:104-106). -/
def putPort (cap : Nat) (w : Bytes) (v : Nat) : Option Bytes :=
  if w.length + 1 < cap then some (w ++ be16 v) else none

/-- The body of the loop of `gen` for one service, after the optional
`OptionAndNextOption` (libcs/client/conn.go:92-133). -/
def genService (cap : Nat) (id : Bytes) (s : Service) (w : Bytes) : Option Bytes :=
  match s.scheme with
  | .tcp => do
    let w := copyBytes cap w [1]
    let w ← putByte cap w (if s.tcpRandom then 1 else 0)
    putPort cap w s.tcpPort
  | .http =>
    if s.hostPrefix = id then some (copyBytes cap w [0])
    else do
      let w := copyBytes cap w [3]
      let w ← putByte cap w (UInt8.ofNat s.hostPrefix.length)
      some (copyBytes cap w s.hostPrefix)
  | .https =>
    if s.hostPrefix = id then some (copyBytes cap w [4])
    else do
      let w := copyBytes cap w [5]
      let w ← putByte cap w (UInt8.ofNat s.hostPrefix.length)
      some (copyBytes cap w s.hostPrefix)

/-- The `for i, service := range services` loop (libcs/client/conn.go:87-134); `i != len(services)-1`
is "not the last one". -/
def genServices (cap : Nat) (id : Bytes) : List Service → Bytes → Option Bytes
  | [], w => some w
  | [s], w => genService cap id s w
  | s :: s' :: ss, w => do
    let w := copyBytes cap w [2]
    let w ← genService cap id s w
    genServices cap id (s' :: ss) w

/-- `gen` (libcs/client/conn.go:73-136): bytes written to a buffer of length `cap`, or `none` for a panic. -/
def gen (cap : Nat) (id secret : Bytes) (services : List Service) : Option Bytes := do
  let w ← putByte cap [] (UInt8.ofNat id.length)
  let w := copyBytes cap w id
  let w ← putByte cap w (UInt8.ofNat secret.length)
  let w := copyBytes cap w secret
  genServices cap id services w

/-- `conn.init` (libcs/client/conn.go:60-71): magic number, version, then `gen` into the rest of the
4096-byte reader buffer (pool/pool.go `MaxBufferSize`); the value is what is written to the
connection. -/
def clientInit (id secret : Bytes) (services : List Service) : Option Bytes := do
  let w ← gen (4096 - 2) id secret services
  some ([0xF0, 0x01] ++ w)

/-! ## Server side -/

/-- Errors of the handshake parser. `eof` covers every read error of the underlying connection:
the input list is everything the connection will ever deliver. -/
inductive PErr
  | eof | reachedMaxOptions | hostNumberLimited | tcpNumberLimited | hostRegexMismatch | invalidOption
  deriving DecidableEq, Repr

/-- `hostPrefixOption` (libcs/server/conn.go:608-611). -/
structure HostOpt where
  serviceIndex : Nat     -- uint16
  tls : Bool
  deriving DecidableEq, Repr

/-- `openTCPOption` (libcs/server/conn.go:603-606). -/
structure TcpOpt where
  port : Nat             -- uint16
  random : Bool
  deriving DecidableEq, Repr

/-- The limits `parseOptions` consults: `MaxHandShakeOptions` (uint16), `*u.Host.Number` (uint32),
`*u.TCPNumber` (uint16), the compiled regular expressions of `*u.Host.Regex` as predicates, and
`*u.Host.WithID`. -/
structure Limits where
  maxOptions : Nat
  hostNumber : Nat
  tcpNumber : Nat
  regex : List (Bytes → Bool)
  withID : Bool

/-- Loop state of `parseOptions`: `leftOptions` (int), `optionsCount` (uint16), `serviceIndex`
(uint16), `ids`, `ports` (libcs/server/conn.go:634-640). -/
structure PState where
  left : Nat
  count : Nat
  si : Nat
  ids : AMap Bytes HostOpt
  ports : AMap Nat TcpOpt
  deriving DecidableEq, Repr

/-- `reader.ReadByte()`. -/
def readByte : Bytes → Except PErr (UInt8 × Bytes)
  | [] => .error .eof
  | b :: r => .ok (b, r)

/-- `reader.Peek(n)` followed by `reader.Discard(n)`, `n ≤ 255` (below the 4096-byte buffer). -/
def readN (n : Nat) (inp : Bytes) : Except PErr (Bytes × Bytes) :=
  if n ≤ inp.length then .ok (inp.take n, inp.drop n) else .error .eof

/-- `serviceIndex++` on uint16. -/
def inc16 (n : Nat) : Nat := (n + 1) % 65536

/-- Case `IDAsHostPrefix` / `IDAsTLSHostPrefix` (libcs/server/conn.go:669-686). -/
def optIdHost (lim : Limits) (id : Bytes) (tls : Bool) (st : PState) : Except PErr PState :=
  if lim.hostNumber ≠ 0 ∧ (st.ids.length + 1) % 4294967296 > lim.hostNumber then
    .error .hostNumberLimited
  else
    .ok { st with ids := st.ids.set id ⟨st.si, tls⟩, si := inc16 st.si }

/-- Case `OpenTCPPort` (libcs/server/conn.go:687-714). -/
def optTcp (lim : Limits) (st : PState) (inp : Bytes) : Except PErr (PState × Bytes) :=
  if lim.tcpNumber ≠ 0 ∧ (st.ports.length + 1) % 65536 > lim.tcpNumber then
    .error .tcpNumberLimited
  else do
    let (random, inp) ← readByte inp
    let (p, inp) ← readN 2 inp
    let port := rd16 (p.getD 0 0) (p.getD 1 0)
    .ok ({ st with ports := st.ports.set st.si ⟨port, random != 0⟩, si := inc16 st.si }, inp)

/-- Case `OpenHost` / `OpenTLSHost` (libcs/server/conn.go:718-770). -/
def optHost (lim : Limits) (id : Bytes) (tls : Bool) (st : PState) (inp : Bytes) :
    Except PErr (PState × Bytes) :=
  if lim.hostNumber ≠ 0 ∧ (st.ids.length + 1) % 4294967296 > lim.hostNumber then
    .error .hostNumberLimited
  else do
    let (len, inp) ← readByte inp
    let (pfx, inp) ← readN len.toNat inp
    if lim.regex.length > 0 ∧ ¬ (lim.regex.any (fun r => r pfx)) then
      .error .hostRegexMismatch
    else
      let pfx := if lim.withID then id ++ [0x2D] ++ pfx else pfx
      .ok ({ st with ids := st.ids.set pfx ⟨st.si, tls⟩, si := inc16 st.si }, inp)

/-- One iteration of the loop of `parseOptions` (libcs/server/conn.go:640-775), including the
`leftOptions--` at its end. -/
def parseStep (lim : Limits) (id : Bytes) (st : PState) (inp : Bytes) :
    Except PErr (PState × Bytes) := do
  if (st.count + 1) % 65536 > lim.maxOptions then .error .reachedMaxOptions
  else
    let st := { st with count := inc16 st.count }
    let (first, inp) ← readByte inp
    let (more, inp) ← readN (first.toNat / 64) inp
    let option := first :: more
    if option = [4] then
      let st ← optIdHost lim id true st
      .ok ({ st with left := st.left - 1 }, inp)
    else if option = [0] then
      let st ← optIdHost lim id false st
      .ok ({ st with left := st.left - 1 }, inp)
    else if option = [1] then
      let (st, inp) ← optTcp lim st inp
      .ok ({ st with left := st.left - 1 }, inp)
    else if option = [2] then
      .ok ({ st with left := st.left + 2 - 1 }, inp)
    else if option = [5] then
      let (st, inp) ← optHost lim id true st inp
      .ok ({ st with left := st.left - 1 }, inp)
    else if option = [3] then
      let (st, inp) ← optHost lim id false st inp
      .ok ({ st with left := st.left - 1 }, inp)
    else .error .invalidOption

/-- The loop `for leftOptions := 1; leftOptions > 0; leftOptions--` (libcs/server/conn.go:640). Every
iteration consumes at least one byte of input, so `inp.length + 1` units of fuel always suffice
(`parseLoop_fuel` in Lemmas: running out of fuel never happens); `none` is "out of fuel". -/
def parseLoop (lim : Limits) (id : Bytes) : Nat → PState → Bytes → Option (Except PErr (PState × Bytes))
  | 0, _, _ => none
  | fuel + 1, st, inp =>
    if st.left = 0 then some (.ok (st, inp))
    else match parseStep lim id st inp with
      | .error e => some (.error e)
      | .ok (st, inp) => parseLoop lim id fuel st inp

/-- Initial loop state (libcs/server/conn.go:634-640). -/
def PState.init : PState := ⟨1, 0, 0, [], []⟩

/-- Result of `parseOptions`: the two registration maps (the checksum is modelled in `Checksum`). -/
structure Reg where
  ids : AMap Bytes HostOpt
  ports : AMap Nat TcpOpt
  deriving DecidableEq, Repr

/-- `parseOptions` (libcs/server/conn.go:633-781). -/
def parseOptions (lim : Limits) (id : Bytes) (inp : Bytes) : Option (Except PErr (Reg × Bytes)) :=
  match parseLoop lim id (inp.length + 1) .init inp with
  | none => none
  | some (.error e) => some (.error e)
  | some (.ok (st, rest)) => some (.ok (⟨st.ids, st.ports⟩, rest))

/-- The id/secret part of `handleTunnel` (libcs/server/conn.go:353-395). The length checks at
libcs/server/conn.go:359 and 381 read `len < Min && len > Max`; they are kept as written.  A failed check
returns from `handleTunnel`; we record it as `invalidOption` (never reached, see C03). -/
def parseIdSecret (inp : Bytes) : Except PErr ((Bytes × Bytes) × Bytes) := do
  let (idLen, inp) ← readByte inp
  if idLen.toNat < 1 ∧ idLen.toNat > 200 then .error .invalidOption
  else
    let (id, inp) ← readN idLen.toNat inp
    let (secretLen, inp) ← readByte inp
    if secretLen.toNat < 1 ∧ secretLen.toNat > 200 then .error .invalidOption
    else
      let (secret, inp) ← readN secretLen.toNat inp
      .ok ((id, secret), inp)

/-- The parsing done by `conn.handle` and `handleTunnel` on a fresh connection, when authentication
accepts: magic number and version (libcs/server/conn.go:119-128), id, secret, options.
`none` = not a tunnel handshake (or out of fuel, which never happens). -/
def serverHandshake (lim : Limits) (inp : Bytes) :
    Option (Except PErr ((Bytes × Bytes × Reg) × Bytes)) :=
  match inp with
  | m :: v :: inp =>
    if m = 0xF0 ∧ v = 0x01 then
      match parseIdSecret inp with
      | .error e => some (.error e)
      | .ok ((id, secret), inp) =>
        match parseOptions lim id inp with
        | none => none
        | some (.error e) => some (.error e)
        | some (.ok (reg, rest)) => some (.ok ((id, secret, reg), rest))
    else none
  | _ => none

end Verif.Handshake
