import Verif.Tunnel.Wire
/-!
# Task id allocation (libcs/server/client.go:78-83)

`taskID := atomic.AddUint32(&c.taskIDSeed, 1)`; if it reached the reserved signals,
`atomic.StoreUint32(&c.taskIDSeed, 1)` and id 1. The two atomic operations of different goroutines may
interleave, so an execution is a list of atomic steps.
-/
namespace Verif.TaskId
open Verif Tunnel

/-- One atomic step of some goroutine. -/
inductive Ev where
  /-- line 79: `AddUint32` (and the comparison of line 80 on the returned value) -/
  | add
  /-- line 81: `StoreUint32` by one of the goroutines that saw a too large value -/
  | store
deriving DecidableEq, Repr

/-- `seed`: the shared counter; `pending`: goroutines between lines 80 and 81; `ids`: the ids assigned
so far, latest first. -/
structure St where
  seed : Nat
  pending : Nat
  ids : List Nat
deriving DecidableEq, Repr

/-- libcs/server/client.go:37 `taskIDSeed uint32`, zero value. -/
def init : St := ⟨0, 0, []⟩

/-- libcs/server/client.go:79-83. A `store` without a pending goroutine does not exist: no change. -/
def step (s : St) : Ev → St
  | .add =>
    let v := (s.seed + 1) % 4294967296
    if v ≥ preserved then { s with seed := v, pending := s.pending + 1 }
    else { s with seed := v, ids := v :: s.ids }
  | .store =>
    if s.pending = 0 then s else ⟨1, s.pending - 1, 1 :: s.ids⟩

def run (s : St) (evs : List Ev) : St := evs.foldl step s

/-- One allocation at a time: the steps of each goroutine are not interleaved. -/
def alloc (s : St) : St :=
  let s := step s .add
  if s.pending = 0 then s else step s .store

/-- `n` connections served one after the other. -/
def allocs : Nat → St
  | 0 => init
  | n + 1 => alloc (allocs n)

end Verif.TaskId
