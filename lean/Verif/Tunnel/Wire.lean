import Verif.AMap
import Verif.Bufio.Model
/-!
# Tunnel wire format: what each side writes and how the other side cuts it into frames

The read loops use `Peek`/`Discard`/`LimitedReader.WriteTo` on the buffered reader; C08 and C09 prove
those equal to operations on one byte sequence, so here the connection is the list of bytes still to
be read. A frame body is handled when it is complete; the Go code streams it piecewise to the task, so
when the connection ends inside a frame a prefix of the body may already have been written. A parse result `none` means that the loop is still waiting for bytes (or the connection ended
inside a frame).
-/
namespace Verif.Tunnel
open Verif

/-- libcs/conn/conn.go:103-117: the signals, `math.MaxUint32 - iota`. -/
def sigPing : Nat := 4294967295
def sigClose : Nat := 4294967294
def sigReady : Nat := 4294967293
def sigError : Nat := 4294967292
def sigInfo : Nat := 4294967291
def sigServices : Nat := 4294967290
def sigReconnect : Nat := 4294967289
/-- libcs/conn/conn.go:120 `PreservedSignal = math.MaxUint32 - 3000`. -/
def preserved : Nat := 4294964295

/-- predef/const.go: `Data`, `Close`, `ServicesData`. -/
def opData : Nat := 0
def opClose : Nat := 1
def opServicesData : Nat := 2

/-- `Peek(2)`, decode, `Discard(2)`. -/
def u16? : Bytes → Option (Nat × Bytes)
  | a :: b :: r => some (rd16 a b, r)
  | _ => none

/-- `Peek(4)`, decode, `Discard(4)`. -/
def u32? : Bytes → Option (Nat × Bytes)
  | a :: b :: c :: d :: r => some (rd32 a b c d, r)
  | _ => none

/-- The next `l` bytes (copied to the task or discarded). -/
def body? (l : Nat) (inp : Bytes) : Option (Bytes × Bytes) :=
  if l ≤ inp.length then some (inp.take l, inp.drop l) else none

/-! ## Frames written by the server (libcs/server/conn.go:980-1096, libcs/conn/conn.go:200-319) -/

/-- What the server writes on a tunnel. -/
inductive SFrame where
  | ping | close | ready | services | reconnect
  /-- conn.go `SendInfoTCPPortOpened(si, port)` -/
  | info (si port : Nat)
  /-- first frame of a task: libcs/server/conn.go:1009-1045 -/
  | open_ (id si : Nat) (p : Bytes)
  /-- libcs/server/conn.go:1054-1083 -/
  | data (id : Nat) (p : Bytes)
  /-- libcs/server/conn.go:987-990 -/
  | closeTask (id : Nat)
deriving DecidableEq, Repr

/-- The bytes of a server frame. -/
def SFrame.enc : SFrame → Bytes
  | .ping => be32 sigPing
  | .close => be32 sigClose
  | .ready => be32 sigReady
  | .services => be32 sigServices
  | .reconnect => be32 sigReconnect
  | .info si port => be32 sigInfo ++ be16 1 ++ be16 si ++ be16 port
  | .open_ id si p => be32 id ++ be16 opServicesData ++ be16 si ++ be32 p.length ++ p
  | .data id p => be32 id ++ be16 opData ++ be32 p.length ++ p
  | .closeTask id => be32 id ++ be16 opClose

/-! ## How the client cuts the stream (libcs/client/conn.go:196-372) -/

/-- One iteration of the client's loop. -/
inductive CItem where
  | ping | close | ready | services | error | info
  /-- service index out of range (libcs/client/conn.go:298-301) -/
  | badService
  /-- `p2p`: the first two bytes seen by `r.Peek(2)` are "XP" -/
  | open_ (id si : Nat) (p : Bytes) (p2p : Bool)
  | data (id : Nat) (p : Bytes)
  | closeTask (id : Nat)
  /-- unknown operation: nothing more is read for it -/
  | other (id op : Nat)
deriving DecidableEq, Repr

/-- libcs/client/conn.go:390-397: `r.N > 0` and the next two bytes are 0x5850. `r.Peek` is the connection's
`Peek`, not limited to the frame, so for a one-byte frame it looks at the following frame.
`inp` starts at the payload of length `l`; `none`: waiting for the second byte. -/
def isP2P? (l : Nat) (inp : Bytes) : Option Bool :=
  if l = 0 then some false
  else
    match u16? inp with
    | none => none
    | some (v, _) => some (v == 0x5850)

/-- libcs/client/conn.go:275-373: the task part of the loop, after the 4 bytes `id`. -/
def parseTask (nsvc id : Nat) (inp : Bytes) : Option (CItem × Bytes) :=
  match u16? inp with
  | none => none
  | some (op, inp) =>
    if op = opServicesData then
      match u16? inp with
      | none => none
      | some (si, inp) =>
        if si ≥ nsvc % 65536 then some (.badService, inp)
        else
          match u32? inp with
          | none => none
          | some (l, inp) =>
            match isP2P? l inp with
            | none => none
            | some x =>
              match body? l inp with
              | none => none
              | some (p, inp) => some (.open_ id si p x, inp)
    else if op = opData then
      match u32? inp with
      | none => none
      | some (l, inp) =>
        match body? l inp with
        | none => none
        | some (p, inp) => some (.data id p, inp)
    else if op = opClose then some (.closeTask id, inp)
    else some (.other id op, inp)

/-- libcs/client/conn.go:196-372: one iteration. `ReconnectSignal` has no `continue` (lines 243-248), so its
value is then used as a task id. `nsvc` is the number of services of the tunnel. -/
def parseC (nsvc : Nat) (inp : Bytes) : Option (CItem × Bytes) :=
  match u32? inp with
  | none => none
  | some (sig, inp) =>
    if sig = sigPing then some (.ping, inp)
    else if sig = sigClose then some (.close, inp)
    else if sig = sigReady then some (.ready, inp)
    else if sig = sigServices then some (.services, inp)
    else if sig = sigError then some (.error, inp)
    else if sig = sigInfo then
      -- handleInfo
      match u16? inp with
      | none => none
      | some (code, inp) =>
        if code = 1 then
          match u32? inp with
          | none => none
          | some (_, inp) => some (.info, inp)
        else some (.info, inp)
    else parseTask nsvc sig inp

/-! ## Frames written by the client (libcs/client/task.go:245-318, conn/conn.go) and the server's reader -/

/-- What the client writes on an established tunnel. -/
inductive CFrame where
  | ping | close
  | data (id : Nat) (p : Bytes)
  | closeTask (id : Nat)
deriving DecidableEq, Repr

def CFrame.enc : CFrame → Bytes
  | .ping => be32 sigPing
  | .close => be32 sigClose
  | .data id p => be32 id ++ be16 opData ++ be32 p.length ++ p
  | .closeTask id => be32 id ++ be16 opClose

/-- One iteration of the server's loop. -/
inductive SItem where
  | ping | close | services
  | data (id : Nat) (p : Bytes)
  | closeTask (id : Nat)
  | other (id op : Nat)
deriving DecidableEq, Repr

/-- libcs/server/conn.go:832-976: one iteration. -/
def parseS (inp : Bytes) : Option (SItem × Bytes) :=
  match u32? inp with
  | none => none
  | some (sig, inp) =>
    if sig = sigPing then some (.ping, inp)
    else if sig = sigClose then some (.close, inp)
    else if sig = sigServices then some (.services, inp)
    else
      match u16? inp with
      | none => none
      | some (op, inp) =>
        if op = opData then
          match u32? inp with
          | none => none
          | some (l, inp) =>
            match body? l inp with
            | none => none
            | some (p, inp) => some (.data sig p, inp)
        else if op = opClose then some (.closeTask sig, inp)
        else some (.other sig op, inp)

end Verif.Tunnel
