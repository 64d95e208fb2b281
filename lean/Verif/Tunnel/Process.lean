import Verif.Tunnel.Spec
import Verif.Bufio.Lemmas
/-!
# The two `process` goroutines: cutting one connection into frames

`libcs/server/conn.go:980-1093` (public connection → tunnel) and `libcs/client/task.go:245-318` (local connection →
tunnel). Tunnel writes succeed (a failed write ends the goroutine and closes the tunnel).
-/
namespace Verif.Tunnel
open Verif Bufio

/-- libcs/server/conn.go:1058-1095: the read loop; `buf[bufIndex+4:]` has 4096 - 10 bytes. Fuel: see
`procLoop_total`. -/
def procLoop (id : Nat) : Nat → Rd → Option (List SFrame × Rd)
  | 0, _ => none
  | f + 1, s =>
    let ((bs, e), s') := Bufio.read 4086 s
    let fr := if bs.length > 0 then [SFrame.data id bs] else []
    match e with
    | some _ => some (fr, s')
    | none =>
      match procLoop id f s' with
      | none => none
      | some (frs, s'') => some (fr ++ frs, s'')

/-- libcs/server/conn.go:1014-1031: what is buffered (at most 4096 - 12 bytes) goes into the first frame. -/
def procFirst (s : Rd) : Option (Bytes × Rd) :=
  if s.data.length > 0 then
    match peek s.data.length s with
    | some ((bs, none), s1) =>
      let p := bs.take 4084
      match discard p.length s1 with
      | some ((_, none), s2) => some (p, s2)
      | _ => none
    | _ => none
  else some ([], s)

/-- A bound on the number of reads. -/
def procFuel (s : Rd) : Nat := (s.data ++ bytesOf s.src).length + s.src.length + 1

/-- libcs/server/conn.go:980-1093 `process` for the public connection read through `s`; `byRemote`: the client
closed the task first, so no close frame is sent. -/
def serverProcess (id si : Nat) (byRemote : Bool) (s : Rd) : Option (List SFrame × Rd) :=
  match procFirst s with
  | none => none
  | some (p, s1) =>
    match procLoop id (procFuel s1) s1 with
    | none => none
    | some (frs, s2) => some (SFrame.open_ id si p :: frs ++ (if byRemote then [] else [.closeTask id]), s2)

/-- libcs/client/task.go:282-317: the local connection is read directly. -/
def taskLoop (id : Nat) : Nat → Script → Option (List CFrame × Script)
  | 0, _ => none
  | f + 1, src =>
    let (bs, e, src') := srcRead src 4086
    let fr := if bs.length > 0 then [CFrame.data id bs] else []
    match e with
    | some _ => some (fr, src')
    | none =>
      match taskLoop id f src' with
      | none => none
      | some (frs, src'') => some (fr ++ frs, src'')

/-- libcs/client/task.go:245-318 `process`. -/
def clientProcess (id : Nat) (byRemote : Bool) (src : Script) : Option (List CFrame × Script) :=
  match taskLoop id ((bytesOf src).length + src.length + 1) src with
  | none => none
  | some (frs, src') => some (frs ++ (if byRemote then [] else [.closeTask id]), src')

/-! ## What the frames carry -/

/-- Payload of a frame of the server. -/
def SFrame.payload : SFrame → Bytes
  | .open_ _ _ p => p
  | .data _ p => p
  | _ => []

/-- Payload of a frame of the client. -/
def CFrame.payload : CFrame → Bytes
  | .data _ p => p
  | _ => []

def payloadS (fs : List SFrame) : Bytes := (fs.map SFrame.payload).flatten
def payloadC (fs : List CFrame) : Bytes := (fs.map CFrame.payload).flatten

end Verif.Tunnel
