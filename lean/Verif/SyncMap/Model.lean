import Verif.AMap
/-!
# The server's concurrent map (server/sync/map.go, server/sync/create.go)

Entries (`*entry`) are indices into a heap of pointer cells; `read` and `dirty` map keys to entries.
This file has the shared state and every operation as executed without interference; the interleaved
execution is in `Conc.lean` and uses the same building blocks.
-/
namespace Verif.SyncMap
open Verif

/-- libcs/server/sync/map.go:74-94 `entry.p`: nil, the `expunged` marker or a pointer to a value. -/
inductive Ptr (V : Type) where
  | nil | expunged | val (v : V)
deriving DecidableEq, Repr

/-- libcs/server/sync/map.go:28-61 `Map`, 64-67 `readOnly`. -/
structure M (K V : Type) where
  heap : List (Ptr V)
  read : AMap K Nat
  amended : Bool
  dirty : Option (AMap K Nat)
  misses : Nat
deriving DecidableEq, Repr

variable {K V : Type} [DecidableEq K]

/-- The zero `Map`. -/
def empty : M K V := ⟨[], [], false, none, 0⟩

/-- `*e`. -/
def M.ptr (m : M K V) (e : Nat) : Ptr V := m.heap.getD e .nil

/-- Write to `e.p`. -/
def M.setPtr (m : M K V) (e : Nat) (p : Ptr V) : M K V := { m with heap := m.heap.set e p }

/-- Key lookup in `m.dirty` (a nil map has no keys). -/
def M.dirtyGet (m : M K V) (k : K) : Option Nat :=
  match m.dirty with
  | some d => d.get k
  | none => none

/-- libcs/server/sync/map.go:352-360 `missLocked`. -/
def M.missLocked (m : M K V) : M K V :=
  if m.misses + 1 < (m.dirty.getD []).length then { m with misses := m.misses + 1 }
  else { m with read := m.dirty.getD [], amended := false, dirty := none, misses := 0 }

/-- libcs/server/sync/map.go:362-374 `dirtyLocked`, 376-385 `tryExpungeLocked`: nil entries become expunged, the others are copied. -/
def dirtyCopy : AMap K Nat → M K V → AMap K Nat → M K V × AMap K Nat
  | [], m, d => (m, d)
  | (k, e) :: r, m, d =>
    match m.ptr e with
    | .nil => dirtyCopy r (m.setPtr e .expunged) d
    | .expunged => dirtyCopy r m d
    | .val _ => dirtyCopy r m (d.set k e)

def M.dirtyLocked (m : M K V) : M K V :=
  match m.dirty with
  | some _ => m
  | none =>
    let (m', d) := dirtyCopy m.read m []
    { m' with dirty := some d }

/-- libcs/server/sync/map.go:155-161, 221-228, libcs/server/sync/create.go:45-51: the key is in neither map: `dirtyLocked` if needed, mark
the read map amended, insert a new entry. -/
def M.insertNew (m : M K V) (k : K) (v : V) : M K V :=
  let m := if m.amended then m else { m.dirtyLocked with amended := true }
  { m with heap := m.heap ++ [.val v], dirty := some ((m.dirty.getD []).set k m.heap.length) }

/-- libcs/server/sync/map.go:145-150, 186-188: `unexpungeLocked`, then `m.dirty[key] = e`. -/
def M.unexpunge (m : M K V) (k : K) (e : Nat) : M K V :=
  match m.ptr e with
  | .expunged => { m.setPtr e .nil with dirty := m.dirty.map (fun d => AMap.set d k e) }
  | _ => m

/-- libcs/server/sync/map.go:128-134 `entry.load`. -/
def Ptr.load : Ptr V → Option V
  | .val v => some v
  | _ => none

/-- libcs/server/sync/map.go:103-126 `Load`. -/
def M.load (m : M K V) (k : K) : Option V × M K V :=
  match m.read.get k with
  | some e => ((m.ptr e).load, m)
  | none =>
    if m.amended then
      let r := match m.dirtyGet k with
        | some e => (m.ptr e).load
        | none => none
      (r, m.missLocked)
    else (none, m)

/-- libcs/server/sync/map.go:137-164 `Store`. -/
def M.store (m : M K V) (k : K) (v : V) : M K V :=
  match m.read.get k with
  | some e =>
    match m.ptr e with
    | .expunged => (m.unexpunge k e).setPtr e (.val v)
    | _ => m.setPtr e (.val v)
  | none =>
    match m.dirtyGet k with
    | some e => m.setPtr e (.val v)
    | none => m.insertNew k v

/-- libcs/server/sync/map.go:240-265 `tryLoadOrStore`, libcs/server/sync/create.go:58-80 `tryLoadOrCreate`, on a non-expunged entry. The
result is the value and `loaded`. -/
def M.tryLoadOrStore (m : M K V) (e : Nat) (v : V) : (V × Bool) × M K V :=
  match m.ptr e with
  | .val w => ((w, true), m)
  | _ => ((v, false), m.setPtr e (.val v))

/-- libcs/server/sync/map.go:200-233 `LoadOrStore` and libcs/server/sync/create.go:25-56 `LoadOrCreate` (`v` is what `createFn` would
return). -/
def M.loadOrStore (m : M K V) (k : K) (v : V) : (V × Bool) × M K V :=
  match m.read.get k with
  | some e =>
    match m.ptr e with
    | .expunged => (m.unexpunge k e).tryLoadOrStore e v
    | _ => m.tryLoadOrStore e v
  | none =>
    match m.dirtyGet k with
    | some e =>
      let (r, m') := m.tryLoadOrStore e v
      (r, m'.missLocked)
    | none => ((v, false), m.insertNew k v)

/-- libcs/server/sync/map.go:297-307 `entry.delete`. -/
def M.deleteEntry (m : M K V) (e : Nat) : Option V × M K V :=
  match m.ptr e with
  | .val v => (some v, m.setPtr e .nil)
  | _ => (none, m)

/-- libcs/server/sync/map.go:269-290 `LoadAndDelete`, 293-295 `Delete`. -/
def M.loadAndDelete (m : M K V) (k : K) : Option V × M K V :=
  match m.read.get k with
  | some e => m.deleteEntry e
  | none =>
    if m.amended then
      let o := m.dirtyGet k
      let m' := { m with dirty := m.dirty.map (fun d => AMap.del d k) }.missLocked
      match o with
      | some e => m'.deleteEntry e
      | none => (none, m')
    else (none, m)

/-- libcs/server/sync/map.go:324-339: promotion at the start of `Range`. -/
def M.promote (m : M K V) : M K V :=
  if m.amended then { m with read := m.dirty.getD [], amended := false, dirty := none, misses := 0 } else m

/-- libcs/server/sync/map.go:319-350 `Range` with a callback that always continues: the visited pairs in iteration order
(the order of `read` is arbitrary). -/
def M.range (m : M K V) : List (K × V) × M K V :=
  let m := m.promote
  (m.read.filterMap (fun ke => (m.ptr ke.2).load.map (fun v => (ke.1, v))), m)

/-- One call. -/
inductive Op (K V : Type) where
  | load (k : K)
  | store (k : K) (v : V)
  | loadOrStore (k : K) (v : V)
  | loadOrCreate (k : K) (v : V)
  | loadAndDelete (k : K)
  | delete (k : K)
  | range
deriving DecidableEq, Repr

/-- Its result. -/
inductive Out (K V : Type) where
  | opt (v : Option V)
  | pair (v : V) (loaded : Bool)
  | unit
  | list (l : List (K × V))
deriving DecidableEq, Repr

def step (m : M K V) : Op K V → Out K V × M K V
  | .load k => let (r, m') := m.load k; (.opt r, m')
  | .store k v => (.unit, m.store k v)
  | .loadOrStore k v => (.pair (m.loadOrStore k v).1.1 (m.loadOrStore k v).1.2, (m.loadOrStore k v).2)
  | .loadOrCreate k v => (.pair (m.loadOrStore k v).1.1 (m.loadOrStore k v).1.2, (m.loadOrStore k v).2)
  | .loadAndDelete k => let (r, m') := m.loadAndDelete k; (.opt r, m')
  | .delete k => let (_, m') := m.loadAndDelete k; (.unit, m')
  | .range => let (l, m') := m.range; (.list l, m')

def run : List (Op K V) → M K V → List (Out K V) × M K V
  | [], m => ([], m)
  | o :: os, m =>
    let (r, m') := step m o
    let (rs, m'') := run os m'
    (r :: rs, m'')

/-! ## Specification: a plain map -/

/-- What a call must return on a plain map `f`, and the map afterwards. A `Range` may visit the pairs in
any order. -/
def Spec (f : K → Option V) : Op K V → Out K V → (K → Option V) → Prop
  | .load k, o, g => o = .opt (f k) ∧ g = f
  | .store k v, o, g => o = .unit ∧ g = fun k' => if k' = k then some v else f k'
  | .loadOrStore k v, o, g | .loadOrCreate k v, o, g =>
    match f k with
    | some w => o = .pair w true ∧ g = f
    | none => o = .pair v false ∧ g = fun k' => if k' = k then some v else f k'
  | .loadAndDelete k, o, g => o = .opt (f k) ∧ g = fun k' => if k' = k then none else f k'
  | .delete k, o, g => o = .unit ∧ g = fun k' => if k' = k then none else f k'
  | .range, o, g => g = f ∧ ∃ l, o = .list l ∧ (l.map Prod.fst).Nodup ∧ ∀ k v, (k, v) ∈ l ↔ f k = some v

/-- A history of calls and results that a plain map starting as `f` could produce. -/
def Legal (f : K → Option V) : List (Op K V) → List (Out K V) → Prop
  | [], [] => True
  | o :: os, r :: rs => ∃ g, Spec f o r g ∧ Legal g os rs
  | _, _ => False

end Verif.SyncMap
