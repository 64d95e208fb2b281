import Verif.AMap
/-!
# The client's idle-connection manager (client/idle.go)

Every method runs under `statusMtx`, so it is one atomic step, except: `SetRunningWithTaskCount` has two
critical sections and broadcasts outside them; `Close` takes no lock; and `WaitIdle` can be overtaken by
the lock-free steps between its check of `close` and the moment it is registered as sleeping. Those are
separate steps here.
-/
namespace Verif.Idle
open Verif

/-- libcs/client/idle.go:23-28. -/
inductive Status where
  | running | idle | wait | connecting
deriving DecidableEq, Repr

/-- Where a connection's goroutine is inside `WaitIdle` (libcs/client/idle.go:174-197). -/
inductive WPC where
  /-- not in `WaitIdle`, or returned from it -/
  | out
  /-- holds the lock, about to evaluate `!m.close.Load()` -/
  | head
  /-- holds the lock, saw `close` false -/
  | scan
  /-- registered in `statusCond.Wait`, lock released -/
  | asleep
  /-- woken by a broadcast, waiting to re-acquire the lock -/
  | woken
deriving DecidableEq, Repr

/-- libcs/client/idle.go:32-39 `idleManager`, with the goroutines that are inside its methods: `owner` is the
waiter holding `statusMtx`, `pendSet` the `SetRunningWithTaskCount` calls that saw a non-running status
and have not yet taken the write lock, `pendB` the broadcasts decided but not yet executed. -/
structure St where
  status : AMap Nat Status
  min : Nat
  closed : Bool
  w : AMap Nat WPC
  owner : Option Nat
  pendSet : List Nat
  pendB : Nat
deriving DecidableEq, Repr

/-- libcs/client/idle.go:57-63 `newIdleManager`. -/
def new (min : Nat) : St := ⟨[], min, false, [], none, [], 0⟩

/-- `for _, s := range m.status { switch s { case idle: n++ } }`. -/
def countIdle (m : AMap Nat Status) : Nat := (m.filter (fun e => e.2 = .idle)).length

/-- libcs/client/idle.go:66-84 `Init`. -/
def init (s : St) (id : Nat) : Bool × St :=
  let m := s.status.set id .connecting
  if countIdle m < s.min then (false, { s with status := m })
  else (true, { s with status := m.set id .wait })

/-- libcs/client/idle.go:86-103 `ChangeToWait`. -/
def changeToWait (s : St) (id : Nat) : Bool × St :=
  if countIdle s.status ≤ s.min then (false, s)
  else (true, { s with status := s.status.set id .wait })

/-- libcs/client/idle.go:162-172 `SetIdle`, `SetWait`; 153-159 the second section of
`SetRunningWithTaskCount`. -/
def setStatus (s : St) (id : Nat) (x : Status) : St := { s with status := s.status.set id x }

def pc (s : St) (id : Nat) : WPC := (s.w.get id).getD .out

def setPc (s : St) (id : Nat) (p : WPC) : St := { s with w := s.w.set id p }

/-- libcs/client/idle.go:182-190: some other connection is idle. -/
def otherIdle (m : AMap Nat Status) (id : Nat) : Bool := m.any (fun e => e.1 ≠ id && e.2 = .idle)

/-- `statusCond.Broadcast()`. -/
def wakeAll (w : AMap Nat WPC) : AMap Nat WPC :=
  w.map (fun e => (e.1, if e.2 = .asleep then .woken else e.2))

inductive Ev where
  | init (id : Nat)
  | changeToWait (id : Nat)
  /-- first section of `SetRunningWithTaskCount` -/
  | peekRunning (id : Nat) (count : Nat)
  | setRunning (id : Nat)
  | setIdle (id : Nat)
  | setWait (id : Nat)
  | broadcast
  | closeStore
  | enter (id : Nat)
  | relock (id : Nat)
  | check (id : Nat)
  | scan (id : Nat)
deriving DecidableEq, Repr

/-- One atomic step; `none` when it is not enabled. -/
def step (s : St) : Ev → Option St
  | .init id => if s.owner = none then some (init s id).2 else none
  | .changeToWait id => if s.owner = none then some (changeToWait s id).2 else none
  | .peekRunning id n =>
    -- libcs/client/idle.go:145-152; a missing key reads as the zero value `running`
    if s.owner = none then
      if (s.status.get id).getD .running = .running then
        some (if 3 ≤ n then { s with pendB := s.pendB + 1 } else s)
      else some { s with pendSet := id :: s.pendSet }
    else none
  | .setRunning id =>
    if s.owner = none ∧ id ∈ s.pendSet then
      some (setStatus { s with pendSet := s.pendSet.erase id } id .running)
    else none
  | .setIdle id => if s.owner = none then some (setStatus s id .idle) else none
  | .setWait id => if s.owner = none then some (setStatus s id .wait) else none
  | .broadcast => if 0 < s.pendB then some { s with w := wakeAll s.w, pendB := s.pendB - 1 } else none
  | .closeStore => some { s with closed := true, pendB := s.pendB + 1 }
  | .enter id =>
    if s.owner = none ∧ pc s id = .out then some (setPc { s with owner := some id } id .head) else none
  | .relock id =>
    if s.owner = none ∧ pc s id = .woken then some (setPc { s with owner := some id } id .head) else none
  | .check id =>
    if pc s id = .head then
      if s.closed then some (setPc { s with owner := none } id .out) else some (setPc s id .scan)
    else none
  | .scan id =>
    if pc s id = .scan then
      let m := s.status.set id .wait
      if otherIdle m id then some (setPc { s with status := m, owner := none } id .asleep)
      else some (setPc { s with status := m.set id .connecting, owner := none } id .out)
    else none

def run : List Ev → St → Option St
  | [], s => some s
  | e :: es, s =>
    match step s e with
    | some s' => run es s'
    | none => none

/-! ## Specification vocabulary -/

/-- `id` is an idle connection. -/
def IsIdle (s : St) (id : Nat) : Prop := s.status.get id = some .idle

/-- `l` lists the idle connections, each once. -/
def IdleList (s : St) (l : List Nat) : Prop := l.Nodup ∧ ∀ id, id ∈ l ↔ IsIdle s id

end Verif.Idle
