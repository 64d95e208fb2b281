import Verif.Common
/-!
# C128, C129, C130: a whole conversation between a visitor and a local service

C10-C12 are about what each reader loop does with the bytes of its tunnel. Here the four goroutines that carry
one visitor's connection run together, in every order:

* `process` on the server (libcs/server/conn.go:980-1096), visitor → tunnel;
* `readLoop` on the client (libcs/client/conn.go:285-371, 389-506), tunnel → local service;
* `process` on the client (libcs/client/task.go:245-318), local service → tunnel;
* `readLoop` on the server (libcs/server/conn.go:886-976), tunnel → visitor.

Both directions of the tunnel are queues of frames: the wire format is C10-C12. Other connections on the tunnel do not
touch this one's state (C10, C11) and are left out, as are the reuse of task numbers (C13), P2P connections (C42) and the
`Host` rewriting (C30). The tunnel itself does not fail. How many bytes a `Read` returns is
open (at least one, at most 4086). A write to an open connection takes the whole payload (late writes are C121), one to
a connection closed by gt or by its peer takes nothing. Bytes a peer sent before it closed stay readable (TCP without a reset).
-/
set_option linter.unusedSimpArgs false
set_option linter.unusedVariables false
set_option linter.unusedSectionVars false
namespace Verif.Tunnel.Conversation

abbrev Bytes := List UInt8

/-- A frame: `open` and `data` carry a payload, `close` does not (libcs/predef/const.go: ServicesData, Data, Close). -/
inductive Frame where
  | open_ (p : Bytes)
  | data (p : Bytes)
  | close
deriving DecidableEq, Repr

def Frame.payload : Frame → Bytes
  | .open_ p => p
  | .data p => p
  | .close => []

/-- The `closing` word of a connection (libcs/conn/conn.go:59-65; libcs/client/task.go:37-46): set once, by
compare-and-swap; the socket is closed by whoever sets it. -/
inductive Flag where
  | no
  | here
  | remote
deriving DecidableEq, Repr

/-- libcs/conn/conn.go:78-82, libcs/client/task.go:229-238. -/
def Flag.set (f g : Flag) : Flag :=
  match f with
  | .no => g
  | f => f

/-- Where a `process` goroutine is. -/
inductive Pc where
  /-- it does not run yet -/
  | start
  /-- in the read loop -/
  | reading
  /-- the read loop has ended: is a close frame due? -/
  | ending
  /-- client: the task is still in the table -/
  | unlisting
  /-- the connection is still to be closed -/
  | closing
  | done
deriving DecidableEq, Repr

structure St where
  /-- the visitor: all it sent; what of it the server has not read; has it closed its sending side; has it closed
  altogether; what it got -/
  vSent : Bytes := []
  vIn : Bytes := []
  vFin : Bool := false
  vGone : Bool := false
  vGot : Bytes := []
  /-- the server: `process`, the tunnel's `tasks` entry, `closing` of the visitor's connection, the frame `readLoop` has
  looked up the task for -/
  sp : Pc := .start
  listed : Bool := false
  flag : Flag := .no
  hold : Option Frame := none
  /-- the tunnel: server to client, client to server -/
  up : List Frame := []
  dn : List Frame := []
  /-- the client: has the opening frame been handled; `process`, the tunnel's `tasks` entry, `closing` of the local
  connection, the frame `readLoop` has looked up the task for -/
  dialled : Bool := false
  cp : Pc := .start
  cListed : Bool := false
  cFlag : Flag := .no
  cHold : Option Frame := none
  /-- the local service, as the visitor -/
  sSent : Bytes := []
  sIn : Bytes := []
  sFin : Bool := false
  sGone : Bool := false
  sGot : Bytes := []
deriving DecidableEq, Repr

inductive Ev where
  /-- the visitor sends -/
  | vSend (b : Bytes)
  /-- the visitor closes its sending side; it still reads -/
  | vShut
  /-- the visitor closes -/
  | vClose
  /-- the service sends -/
  | sSend (b : Bytes)
  | sShut
  | sClose
  /-- the server's read deadline for the visitor passes (libcs/server/conn.go:1059-1065) -/
  | srvTimeout
  /-- the client's read deadline for the service passes (libcs/client/task.go:283-289) -/
  | cliTimeout
  /-- server `process`: register, first frame with `n` buffered bytes (libcs/server/conn.go:983, 1009-1039) -/
  | srvOpen (n : Nat)
  /-- server `process`: read `n` bytes and send them (1066-1084) -/
  | srvRead (n : Nat)
  /-- server `process`: the read fails, the task leaves the table (1092-1094, 986) -/
  | srvEnd
  /-- server `process`: close frame unless closed by the client (987-990) -/
  | srvTell
  /-- `handle` closes the visitor's connection (100; 180) -/
  | srvClose
  /-- server `readLoop`: next frame, task looked up (886-899) -/
  | srvTake
  /-- server `readLoop`: the frame's effect (921-935, 973-975) -/
  | srvDo
  /-- client `process`: read `n` bytes and send them (libcs/client/task.go:290-303) -/
  | cliRead (n : Nat)
  | cliEnd
  /-- client `process`: close frame unless closed by the server (252-256) -/
  | cliTell
  /-- client `process`: the task leaves the table (259-261) -/
  | cliUnlist
  /-- client `process`: the local connection is closed (263) -/
  | cliClose
  /-- client `readLoop`: next frame, task looked up (libcs/client/conn.go:280-284, 461-463, 366-368); `ok`: can the
  service be dialled (412-421) -/
  | cliTake (ok : Bool)
  /-- client `readLoop`: the frame's effect (435, 484, 369-371) -/
  | cliDo
deriving DecidableEq, Repr

/-- The read loop's exit: end of stream, or the connection has been closed by gt. -/
def atEnd (inp : Bytes) (fin : Bool) (f : Flag) : Bool := (inp.isEmpty && fin) || f != .no

/-- One step; `none`: not possible now. -/
def step (s : St) : Ev → Option St
  | .vSend b => if s.vFin then none else some { s with vSent := s.vSent ++ b, vIn := s.vIn ++ b }
  | .vShut => if s.vFin then none else some { s with vFin := true }
  | .vClose => if s.vGone then none else some { s with vFin := true, vGone := true }
  | .sSend b =>
    if s.sFin || s.cp == .start then none else some { s with sSent := s.sSent ++ b, sIn := s.sIn ++ b }
  | .sShut => if s.sFin || s.cp == .start then none else some { s with sFin := true }
  | .sClose => if s.sGone || s.cp == .start then none else some { s with sFin := true, sGone := true }
  | .srvTimeout => if s.sp == .reading then some { s with sp := .ending, listed := false } else none
  | .cliTimeout => if s.cp == .reading then some { s with cp := .ending } else none
  | .srvOpen n =>
    if s.sp == .start && decide (n ≤ s.vIn.length) && decide (n ≤ 4084) then
      some { s with sp := .reading, listed := true, up := s.up ++ [.open_ (s.vIn.take n)], vIn := s.vIn.drop n }
    else none
  | .srvRead n =>
    if s.sp == .reading && s.flag == .no && decide (0 < n) && decide (n ≤ s.vIn.length) && decide (n ≤ 4086) then
      some { s with up := s.up ++ [.data (s.vIn.take n)], vIn := s.vIn.drop n }
    else none
  | .srvEnd =>
    if s.sp == .reading && atEnd s.vIn s.vFin s.flag then some { s with sp := .ending, listed := false } else none
  | .srvTell =>
    if s.sp == .ending then
      some { s with sp := .closing, up := if s.flag = .remote then s.up else s.up ++ [.close] }
    else none
  | .srvClose => if s.sp == .closing then some { s with sp := .done, flag := s.flag.set .here } else none
  | .srvTake =>
    match s.hold, s.dn with
    | none, f :: r => some { s with dn := r, hold := if s.listed then some f else none }
    | _, _ => none
  | .srvDo =>
    match s.hold with
    | some .close => some { s with hold := none, flag := s.flag.set .remote }
    | some f =>
      some { s with hold := none, vGot := if s.flag == .no && !s.vGone then s.vGot ++ f.payload else s.vGot }
    | none => none
  | .cliRead n =>
    if s.cp == .reading && s.cFlag == .no && decide (0 < n) && decide (n ≤ s.sIn.length) && decide (n ≤ 4086) then
      some { s with dn := s.dn ++ [.data (s.sIn.take n)], sIn := s.sIn.drop n }
    else none
  | .cliEnd => if s.cp == .reading && atEnd s.sIn s.sFin s.cFlag then some { s with cp := .ending } else none
  | .cliTell =>
    if s.cp == .ending then
      some { s with cp := .unlisting, dn := if s.cFlag = .remote then s.dn else s.dn ++ [.close] }
    else none
  | .cliUnlist => if s.cp == .unlisting then some { s with cp := .closing, cListed := false } else none
  | .cliClose => if s.cp == .closing then some { s with cp := .done, cFlag := s.cFlag.set .here } else none
  | .cliTake ok =>
    match s.cHold, s.up with
    | none, .open_ p :: r =>
      if ok then some { s with up := r, dialled := true, cListed := true, cp := .reading, cHold := some (.data p) }
      else some { s with up := r, dialled := true }
    | none, f :: r => some { s with up := r, cHold := if s.cListed then some f else none }
    | _, _ => none
  | .cliDo =>
    match s.cHold with
    | some .close => some { s with cHold := none, cFlag := s.cFlag.set .remote }
    | some f =>
      some { s with cHold := none, sGot := if s.cFlag == .no && !s.sGone then s.sGot ++ f.payload else s.sGot }
    | none => none

def run (s : St) : List Ev → Option St
  | [] => some s
  | e :: es => match step s e with
    | none => none
    | some s' => run s' es

/-- A run from the moment the visitor has connected and a tunnel has been chosen. -/
def Reached (es : List Ev) (s : St) : Prop := run {} es = some s

/-- Steps of gt's own goroutines; the others are the visitor's, the service's and the clock's. -/
def Ev.own : Ev → Bool
  | .vSend _ | .vShut | .vClose | .sSend _ | .sShut | .sClose | .srvTimeout | .cliTimeout => false
  | _ => true

/-- gt has nothing left to do: it waits for the visitor, the service or the clock. -/
def Quiet (s : St) : Prop := ∀ e, e.own = true → step s e = none

end Verif.Tunnel.Conversation
