import Verif.Tunnel.Wire
/-!
# The client's tunnel read loop (libcs/client/conn.go:169-531)

`Env` lists what the outside world does around one iteration of the loop: which task goroutines have
finished (`task.process` deletes its id from `c.tasks`), whether dialling the local service succeeds,
how much of the payload the local connection takes. An execution is a list of such choices, so a
theorem "for all lists" covers all schedules.

Host rewriting (`UseLocalAsHTTPHost`) happens inside `httpTask.Write` and is the subject of C30: `got`
is the sequence of bytes handed to `task.Write`.
-/
namespace Verif.Tunnel
open Verif

/-- A connection dialled to a local service, with the bytes it received. -/
structure Local where
  svc : Nat
  got : Bytes
  closed : Bool
deriving DecidableEq, Repr

/-- The environment's choices around one iteration. -/
structure Env where
  /-- task ids whose `process` goroutine ended (libcs/client/task.go:259-261 `delete(c.tasks, taskID)`) -/
  ended : List Nat
  /-- libcs/client/conn.go:410-419: one of the three `dial` attempts succeeded -/
  dialOk : Bool
  /-- `none`: the local connection takes the whole payload; `some n`: it fails after `n` bytes -/
  accept : Option Nat
  /-- `newPeerTask`/`newPeerProcTask` succeeded and a STUN server is configured -/
  p2pOk : Bool
deriving DecidableEq, Repr

/-- What the local connection takes from a payload. -/
def Env.take (e : Env) (p : Bytes) : Bytes :=
  match e.accept with
  | none => p
  | some n => p.take n

/-- State of the loop: all local connections ever dialled (in order), `c.tasks` (id to position in
that list), `c.client.peers` (id to the bytes handed to it), `isClosing`, `lastPing`. -/
structure CState where
  locals : List Local
  tasks : AMap Nat Nat
  peers : AMap Nat Bytes
  isClosing : Bool
  lastPing : Nat
deriving DecidableEq, Repr

/-- A tunnel that just became ready. -/
def CState.init : CState := ⟨[], [], [], false, 0⟩

/-- libcs/client/task.go:259-261. The id is deleted whatever task is stored under it. -/
def reap (e : Env) (s : CState) : CState :=
  { s with tasks := e.ended.foldl AMap.del s.tasks }

/-- libcs/client/task.go:68-70: `t.conn.Write` on a closed connection fails without taking anything. -/
def Local.write (e : Env) (p : Bytes) (l : Local) : Local :=
  if l.closed then l else { l with got := l.got ++ e.take p }

/-- libcs/client/conn.go:424-431: the old task of the same id is closed. -/
def closeOld (s : CState) (id : Nat) : List Local :=
  match s.tasks.get id with
  | some j => s.locals.modify j (fun l => { l with closed := true })
  | none => s.locals

/-- libcs/client/conn.go:389-458 `processServiceData`. When dialling fails the payload is discarded and
nothing is sent back. An old task with the same id is closed and replaced (lines 442-447). -/
def handleOpen (e : Env) (s : CState) (id si : Nat) (p : Bytes) (p2p : Bool) : CState :=
  if p2p then
    if e.p2pOk then { s with peers := s.peers.set id p } else s
  else if e.dialOk then
    { s with
      locals := closeOld s id ++ [⟨si, e.take p, false⟩]
      tasks := s.tasks.set id s.locals.length }
  else s

/-- libcs/client/conn.go:460-506 `processData`. -/
def handleData (e : Env) (s : CState) (id : Nat) (p : Bytes) : CState :=
  match s.tasks.get id with
  | some j => { s with locals := s.locals.modify j (Local.write e p) }
  | none =>
    match s.peers.get id with
    | some q => { s with peers := s.peers.set id (q ++ p) }
    | none => s

/-- libcs/client/conn.go:365-371. -/
def handleClose (s : CState) (id : Nat) : CState :=
  match s.tasks.get id with
  | some j => { s with locals := s.locals.modify j (fun l => { l with closed := true }) }
  | none => s

/-- libcs/client/conn.go:216-373: dispatch of one item; `none` means that `readLoop` returns. The ping
counter of dead-server detection is the subject of C39; parking (`ChangeToWait`) only sends a signal. -/
def handle (e : Env) (s : CState) : CItem → Option CState
  | .ping =>
    let lp := s.lastPing + 1
    if s.isClosing && decide (lp ≥ 3) && s.tasks.isEmpty then none
    else some { s with lastPing := if lp ≥ 6 then 0 else lp }
  | .close =>
    if s.isClosing then none
    else if s.tasks.isEmpty then none
    else some { s with isClosing := true }
  | .ready => some s
  | .services => some s
  | .error => none
  | .info => some s
  | .badService => none
  | .open_ id si p x => some { handleOpen e s id si p x with lastPing := 0 }
  | .data id p => some { handleData e s id p with lastPing := 0 }
  | .closeTask id => some { handleClose s id with lastPing := 0 }
  | .other _ _ => some { s with lastPing := 0 }

/-- Result of a run: `running` (waiting for more bytes or for the next environment step) or stopped. -/
structure CRes where
  st : CState
  rest : Bytes
  running : Bool
deriving DecidableEq, Repr

/-- libcs/client/conn.go:192-373: one loop iteration per environment step. -/
def runC (nsvc : Nat) : List Env → CState → Bytes → CRes
  | [], s, inp => ⟨s, inp, true⟩
  | e :: es, s, inp =>
    let s := reap e s
    match parseC nsvc inp with
    | none => ⟨s, inp, true⟩
    | some (it, rest) =>
      match handle e s it with
      | none => ⟨s, rest, false⟩
      | some s' => runC nsvc es s' rest

/-- The local connection currently serving task `i`. -/
def view (s : CState) (i : Nat) : Option Local :=
  match s.tasks.get i with
  | some j => s.locals[j]?
  | none => none

end Verif.Tunnel
