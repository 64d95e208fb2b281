import Verif.Tunnel.Wire
/-!
# The server's tunnel read loop (libcs/server/conn.go:820-978)

Public connections are added to and removed from `c.tasks` by their own goroutines
(`process`, lines 983 and 986); these are environment actions before an iteration.
-/
namespace Verif.Tunnel
open Verif

/-- A public connection with the bytes written back to it. -/
structure Pub where
  got : Bytes
  closed : Bool
deriving DecidableEq, Repr

/-- libcs/server/conn.go:983 `addTask`, 986 `removeTask`. -/
inductive Act where
  | add (id : Nat)
  | remove (id : Nat)
deriving DecidableEq, Repr

/-- Environment of one iteration. -/
structure SEnv where
  acts : List Act
  /-- bytes the public connection takes (`none`: all; `some n`: write error after `n`) -/
  accept : Option Nat
  /-- the tunnel is still registered with its client (lines 857-863); reply sent -/
  pingOk : Bool
deriving DecidableEq, Repr

def SEnv.take (e : SEnv) (p : Bytes) : Bytes :=
  match e.accept with
  | none => p
  | some n => p.take n

structure SState where
  pubs : List Pub
  tasks : AMap Nat Nat
  isClosing : Bool
deriving DecidableEq, Repr

def SState.init : SState := ⟨[], [], false⟩

def act (s : SState) : Act → SState
  | .add id => { s with pubs := s.pubs ++ [⟨[], false⟩], tasks := s.tasks.set id s.pubs.length }
  | .remove id => { s with tasks := s.tasks.del id }

def acts (e : SEnv) (s : SState) : SState := e.acts.foldl act s

def Pub.write (e : SEnv) (p : Bytes) (l : Pub) : Pub :=
  if l.closed then l else { l with got := l.got ++ e.take p }

/-- Result of one iteration: `panic` is the nil pointer dereference at line 961. -/
inductive SOut where
  | next (s : SState)
  | stop
  | reload
  | panic
deriving DecidableEq, Repr

/-- libcs/server/conn.go:851-975. `deadline` is `Timeout > 0 && !TimeoutOnUnidirectionalTraffic`. Speed
limiting (C20) only delays. -/
def handleS (deadline : Bool) (e : SEnv) (s : SState) : SItem → SOut
  | .ping => if e.pingOk then .next s else .stop
  | .close => if s.isClosing then .stop else .next { s with isClosing := true }
  | .services => .reload
  | .data id p =>
    match s.tasks.get id with
    | none =>
      if p.length > 0 then .next s
      else
        -- r.WriteTo(nil) returns immediately because r.N = 0; then task.SetReadDeadline
        if deadline then .panic else .next s
    | some j => .next { s with pubs := s.pubs.modify j (Pub.write e p) }
  | .closeTask id =>
    match s.tasks.get id with
    | none => .next s
    | some j => .next { s with pubs := s.pubs.modify j (fun l => { l with closed := true }) }
  | .other _ _ => .next s

inductive SEnd where
  | running | stopped | reload | panic
deriving DecidableEq, Repr

structure SRes where
  st : SState
  rest : Bytes
  fin : SEnd
deriving DecidableEq, Repr

/-- libcs/server/conn.go:834-977. -/
def runS (deadline : Bool) : List SEnv → SState → Bytes → SRes
  | [], s, inp => ⟨s, inp, .running⟩
  | e :: es, s, inp =>
    let s := acts e s
    match parseS inp with
    | none => ⟨s, inp, .running⟩
    | some (it, rest) =>
      match handleS deadline e s it with
      | .next s' => runS deadline es s' rest
      | .stop => ⟨s, rest, .stopped⟩
      | .reload => ⟨s, rest, .reload⟩
      | .panic => ⟨s, rest, .panic⟩

/-- The public connection currently registered under task `i`. -/
def viewS (s : SState) (i : Nat) : Option Pub :=
  match s.tasks.get i with
  | some j => s.pubs[j]?
  | none => none

/-! ## Specification: what the events of task `i` do to its public connection -/

def actOwn (i : Nat) (v : Option Pub) : Act → Option Pub
  | .add id => if id = i then some ⟨[], false⟩ else v
  | .remove id => if id = i then none else v

def ownS (i : Nat) (v : Option Pub) (f : CFrame) (e : SEnv) : Option Pub :=
  let v := e.acts.foldl (actOwn i) v
  match f with
  | .data id p =>
    if id = i then v.map (fun l => if l.closed then l else { l with got := l.got ++ e.take p }) else v
  | .closeTask id => if id = i then v.map (fun l => { l with closed := true }) else v
  | _ => v

def CFrame.isOf (i : Nat) : CFrame → Bool
  | .data id _ => id == i
  | .closeTask id => id == i
  | _ => false

def Act.isOf (i : Nat) : Act → Bool
  | .add id => id == i
  | .remove id => id == i

/-- The events that concern task `i`. -/
def concernsS (i : Nat) (x : CFrame × SEnv) : Bool := x.1.isOf i || x.2.acts.any (Act.isOf i)

def ownRunS (i : Nat) (v : Option Pub) (h : List (CFrame × SEnv)) : Option Pub :=
  h.foldl (fun v x => ownS i v x.1 x.2) v

/-- Frames the client's code produces. -/
def CFrame.Valid : CFrame → Prop
  | .data id p => id < preserved ∧ p.length < 4294967296
  | .closeTask id => id < preserved
  | _ => True

def encAllC (fs : List CFrame) : Bytes := (fs.map CFrame.enc).flatten

end Verif.Tunnel
