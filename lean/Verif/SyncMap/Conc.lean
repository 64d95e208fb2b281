import Verif.SyncMap.Model
/-!
# The server's concurrent map under concurrency (server/sync/map.go, server/sync/create.go)

Any number of threads call the map; every access to a shared atomic (`m.read`, `e.p`) is a separate
step, interleaved arbitrarily. Local computation is joined to the shared access before or after it, and
accesses to `m.dirty` and `m.misses` (only ever touched with `m.mu` held) are joined to the neighbouring
step of the same critical section. `m.read` is only written with `m.mu` held, so re-reading it under the
lock is joined to taking the lock. A section whose only visible effect is one write of `m.read` is
therefore one step. A `CompareAndSwap` succeeds only when the cell holds the expected content, and may
fail at any time (in Go it also fails when the content is equal but a different allocation).
-/
namespace Verif.SyncMap
open Verif

variable {K V : Type} [DecidableEq K]

/-- One call. `LoadOrStore(k, v)` is `loadOrCreate k [v]`: libcs/server/sync/map.go:200-265 is libcs/server/sync/create.go:25-80 with the
value in place of `createFn()`. `vals` are the values `createFn` may return. -/
inductive COp (K V : Type) where
  | load (k : K)
  | store (k : K) (v : V)
  | loadOrCreate (k : K) (vals : List V)
  | loadAndDelete (k : K)
  | delete (k : K)
  | range

/-- Who called `tryLoadOrCreate`: the lock-free path (libcs/server/sync/create.go:28), the locked path on an entry of the
read map (libcs/server/sync/create.go:40) or on one of the dirty map (libcs/server/sync/create.go:42). -/
inductive Lk where
  | free | lockR | lockD

/-- Where a thread is. -/
inductive PC (K V : Type) where
  /-- between two calls -/
  | idle
  /-- about to load `m.read` -/
  | start (op : COp K V)
  /-- about to take `m.mu` -/
  | want (op : COp K V)
  /-- `Load`: about to execute `e.load()` (libcs/server/sync/map.go:125) -/
  | ldE (k : K) (e : Nat)
  /-- `tryStore`: about to load `e.p` (libcs/server/sync/map.go:172) -/
  | stT (k : K) (v : V) (e : Nat)
  /-- `tryStore`: about to compare and swap (libcs/server/sync/map.go:176) -/
  | stC (k : K) (v : V) (e : Nat) (p : Ptr V)
  /-- `tryLoadOrCreate`: about to load `e.p` (libcs/server/sync/create.go:59, 72); `ov` is the value already created -/
  | lsT (k : K) (vals : List V) (ov : Option V) (e : Nat) (lk : Lk)
  /-- `tryLoadOrCreate`: about to compare and swap (libcs/server/sync/create.go:69) -/
  | lsC (k : K) (vals : List V) (v : V) (e : Nat) (lk : Lk)
  /-- `Store`, locked: about to execute `storeLocked` (libcs/server/sync/map.go:151, 153) -/
  | stL (k : K) (v : V) (e : Nat)
  /-- about to unlock and return -/
  | unl (o : Out K V)
  /-- about to execute `missLocked`, unlock and return (libcs/server/sync/create.go:43, 53) -/
  | miss (o : Out K V)
  /-- `dirtyLocked`: at the head of the loop over the read map (libcs/server/sync/map.go:369) -/
  | dl (op : COp K V)
  /-- `tryExpungeLocked`: nil seen, about to compare and swap (libcs/server/sync/map.go:379) -/
  | dlC (op : COp K V)
  /-- `entry.delete`: about to load `e.p` (libcs/server/sync/map.go:299); `own`: the entry was taken out of the dirty map -/
  | deT (op : COp K V) (k : K) (e : Nat) (own : Bool)
  /-- `entry.delete`: about to compare and swap (libcs/server/sync/map.go:303) -/
  | deC (op : COp K V) (k : K) (e : Nat) (v : V) (own : Bool)
  /-- `Range`: entries still to visit, pairs passed to the callback (libcs/server/sync/map.go:341-349) -/
  | rg (todo : AMap K Nat) (acc : AMap K V)
  /-- about to return -/
  | ret (o : Out K V)

/-- The shared memory. `bld` is the content of `m.dirty` while `dirtyLocked` fills it (nobody else can
look at it then): the entries of the read map still to copy, and the copy. `mu` is the holder of
`m.mu`. -/
structure Sh (K V : Type) where
  m : M K V
  bld : Option (AMap K Nat × AMap K Nat)
  mu : Option Nat

/-- The call inserts a new value `v` under `k` and then returns `o` (libcs/server/sync/map.go:161, libcs/server/sync/create.go:49-51). -/
def newVal : COp K V → K → V → Out K V → Prop
  | .store k' v', k, v, o => k' = k ∧ v' = v ∧ o = .unit
  | .loadOrCreate k' vals, k, v, o => k' = k ∧ v ∈ vals ∧ o = .pair v false
  | _, _, _, _ => False

/-- The two deleting calls (libcs/server/sync/map.go:269, 293). -/
def isDel : COp K V → K → Prop
  | .loadAndDelete k', k => k' = k
  | .delete k', k => k' = k
  | _, _ => False

/-- What they return: `Delete` drops the value. -/
def delOut : COp K V → Option V → Out K V
  | .loadAndDelete _, x => .opt x
  | _, _ => .unit

/-- After `tryLoadOrCreate` (libcs/server/sync/create.go:29-31, 40-43). -/
def fin (lk : Lk) (o : Out K V) : PC K V :=
  match lk with
  | .free => .ret o
  | .lockR => .unl o
  | .lockD => .miss o

/-- The value offered by `tryLoadOrCreate` (libcs/server/sync/create.go:67). -/
def offered (ov : Option V) (vals : List V) (v : V) : Prop :=
  match ov with
  | some w => v = w
  | none => v ∈ vals

/-- libcs/server/sync/map.go:278-282 -/
def M.dropDirty (m : M K V) (k : K) : M K V :=
  M.missLocked { m with dirty := m.dirty.map (fun d => AMap.del d k) }

/-- libcs/server/sync/map.go:362-369: the start of `dirtyLocked`; an existing dirty map is left as it is. -/
def M.startCopy (m : M K V) : AMap K Nat × AMap K Nat :=
  match m.dirty with
  | none => (m.read, [])
  | some d => ([], d)

/-- libcs/server/sync/create.go:46-50, the end of libcs/server/sync/map.go:158-161: the copy becomes the dirty map, the read map is marked
amended, the new entry is added. -/
def M.commit (m : M K V) (d : AMap K Nat) (k : K) (v : V) : M K V :=
  { m with heap := m.heap ++ [.val v], dirty := some (AMap.set d k m.heap.length), amended := true }

/-- One step of thread `t`. -/
inductive TStep (t : Nat) : Sh K V → PC K V → Sh K V → PC K V → Prop
  -- Load, libcs/server/sync/map.go:103-126
  | ld_hit (s k e) : s.m.read.get k = some e → TStep t s (.start (.load k)) s (.ldE k e)
  | ld_none (s k) : s.m.read.get k = none → s.m.amended = false →
      TStep t s (.start (.load k)) s (.ret (.opt none))
  | ld_slow (s k) : s.m.read.get k = none → s.m.amended = true → TStep t s (.start (.load k)) s (.want (.load k))
  | ldw_hit (s k e) : s.mu = none → s.m.read.get k = some e → TStep t s (.want (.load k)) s (.ldE k e)
  | ldw_none (s k) : s.mu = none → s.m.read.get k = none → s.m.amended = false →
      TStep t s (.want (.load k)) s (.ret (.opt none))
  | ldw_dirty (s k e) : s.mu = none → s.m.read.get k = none → s.m.amended = true → s.m.dirtyGet k = some e →
      TStep t s (.want (.load k)) { s with m := s.m.missLocked } (.ldE k e)
  | ldw_absent (s k) : s.mu = none → s.m.read.get k = none → s.m.amended = true → s.m.dirtyGet k = none →
      TStep t s (.want (.load k)) { s with m := s.m.missLocked } (.ret (.opt none))
  | ldE (s k e) : TStep t s (.ldE k e) s (.ret (.opt (s.m.ptr e).load))
  -- Store, libcs/server/sync/map.go:137-195
  | st_hit (s k v e) : s.m.read.get k = some e → TStep t s (.start (.store k v)) s (.stT k v e)
  | st_slow (s k v) : s.m.read.get k = none → TStep t s (.start (.store k v)) s (.want (.store k v))
  | stT_exp (s k v e) : s.m.ptr e = .expunged → TStep t s (.stT k v e) s (.want (.store k v))
  | stT (s k v e) : s.m.ptr e ≠ .expunged → TStep t s (.stT k v e) s (.stC k v e (s.m.ptr e))
  | stC_ok (s k v e) : TStep t s (.stC k v e (s.m.ptr e)) { s with m := s.m.setPtr e (.val v) } (.ret .unit)
  | stC_fail (s k v e p) : TStep t s (.stC k v e p) s (.stT k v e)
  | stw_read (s k v e) : s.mu = none → s.m.read.get k = some e →
      TStep t s (.want (.store k v)) { s with m := s.m.unexpunge k e, mu := some t } (.stL k v e)
  | stw_dirty (s k v e) : s.mu = none → s.m.read.get k = none → s.m.dirtyGet k = some e →
      TStep t s (.want (.store k v)) { s with mu := some t } (.stL k v e)
  | stL (s k v e) : TStep t s (.stL k v e) { s with m := s.m.setPtr e (.val v) } (.unl .unit)
  | unl (s o) : TStep t s (.unl o) { s with mu := none } (.ret o)
  -- a new key: libcs/server/sync/map.go:154-163, libcs/server/sync/create.go:44-53
  | ins (s op k v o) : newVal op k v o → s.mu = none → s.m.read.get k = none → s.m.dirtyGet k = none →
      s.m.amended = true → TStep t s (.want op) { s with m := s.m.insertNew k v } (.ret o)
  | ins_dl (s op k v o) : newVal op k v o → s.mu = none → s.m.read.get k = none → s.m.dirtyGet k = none →
      s.m.amended = false →
      TStep t s (.want op) { s with mu := some t, bld := some s.m.startCopy } (.dl op)
  | dl_nil (s op k e td d) : s.bld = some ((k, e) :: td, d) → s.m.ptr e = .nil → TStep t s (.dl op) s (.dlC op)
  | dl_exp (s op k e td d) : s.bld = some ((k, e) :: td, d) → s.m.ptr e = .expunged →
      TStep t s (.dl op) { s with bld := some (td, d) } (.dl op)
  | dl_val (s op k e td d v) : s.bld = some ((k, e) :: td, d) → s.m.ptr e = .val v →
      TStep t s (.dl op) { s with bld := some (td, AMap.set d k e) } (.dl op)
  | dlC_ok (s op k e td d) : s.bld = some ((k, e) :: td, d) → s.m.ptr e = .nil →
      TStep t s (.dlC op) { s with m := s.m.setPtr e .expunged, bld := some (td, d) } (.dl op)
  | dlC_fail (s op) : TStep t s (.dlC op) s (.dl op)
  | dl_end (s op k v o d) : newVal op k v o → s.bld = some ([], d) →
      TStep t s (.dl op) { m := s.m.commit d k v, bld := none, mu := none } (.ret o)
  -- LoadOrCreate, libcs/server/sync/create.go:25-80 (and LoadOrStore, libcs/server/sync/map.go:200-265)
  | lc_hit (s k vals e) : s.m.read.get k = some e →
      TStep t s (.start (.loadOrCreate k vals)) s (.lsT k vals none e .free)
  | lc_slow (s k vals) : s.m.read.get k = none →
      TStep t s (.start (.loadOrCreate k vals)) s (.want (.loadOrCreate k vals))
  | lcw_read (s k vals e) : s.mu = none → s.m.read.get k = some e →
      TStep t s (.want (.loadOrCreate k vals)) { s with m := s.m.unexpunge k e, mu := some t }
        (.lsT k vals none e .lockR)
  | lcw_dirty (s k vals e) : s.mu = none → s.m.read.get k = none → s.m.dirtyGet k = some e →
      TStep t s (.want (.loadOrCreate k vals)) { s with mu := some t } (.lsT k vals none e .lockD)
  | lsT_exp (s k vals ov e) : s.m.ptr e = .expunged →
      TStep t s (.lsT k vals ov e .free) s (.want (.loadOrCreate k vals))
  /-- with the lock held `ok` is ignored and a nil value would be returned -/
  | lsT_bad (s k vals ov e lk) : lk ≠ .free → s.m.ptr e = .expunged →
      TStep t s (.lsT k vals ov e lk) s (fin lk (.opt none))
  | lsT_val (s k vals ov e lk w) : s.m.ptr e = .val w → TStep t s (.lsT k vals ov e lk) s (fin lk (.pair w true))
  | lsT_nil (s k vals ov e lk v) : s.m.ptr e = .nil → offered ov vals v →
      TStep t s (.lsT k vals ov e lk) s (.lsC k vals v e lk)
  | lsC_ok (s k vals v e lk) : s.m.ptr e = .nil →
      TStep t s (.lsC k vals v e lk) { s with m := s.m.setPtr e (.val v) } (fin lk (.pair v false))
  | lsC_fail (s k vals v e lk) : TStep t s (.lsC k vals v e lk) s (.lsT k vals (some v) e lk)
  | miss (s o) : TStep t s (.miss o) { s with m := s.m.missLocked, mu := none } (.ret o)
  -- LoadAndDelete and Delete, libcs/server/sync/map.go:269-307
  | de_hit (s op k e) : isDel op k → s.m.read.get k = some e → TStep t s (.start op) s (.deT op k e false)
  | de_none (s op k) : isDel op k → s.m.read.get k = none → s.m.amended = false →
      TStep t s (.start op) s (.ret (delOut op none))
  | de_slow (s op k) : isDel op k → s.m.read.get k = none → s.m.amended = true → TStep t s (.start op) s (.want op)
  | dew_hit (s op k e) : isDel op k → s.mu = none → s.m.read.get k = some e →
      TStep t s (.want op) s (.deT op k e false)
  | dew_none (s op k) : isDel op k → s.mu = none → s.m.read.get k = none → s.m.amended = false →
      TStep t s (.want op) s (.ret (delOut op none))
  | dew_dirty (s op k e) : isDel op k → s.mu = none → s.m.read.get k = none → s.m.amended = true →
      s.m.dirtyGet k = some e → TStep t s (.want op) { s with m := s.m.dropDirty k } (.deT op k e true)
  | dew_absent (s op k) : isDel op k → s.mu = none → s.m.read.get k = none → s.m.amended = true →
      s.m.dirtyGet k = none → TStep t s (.want op) { s with m := s.m.dropDirty k } (.ret (delOut op none))
  | deT_none (s op k e own) : (s.m.ptr e).load = none → TStep t s (.deT op k e own) s (.ret (delOut op none))
  | deT_val (s op k e own v) : s.m.ptr e = .val v → TStep t s (.deT op k e own) s (.deC op k e v own)
  | deC_ok (s op k e v own) : s.m.ptr e = .val v →
      TStep t s (.deC op k e v own) { s with m := s.m.setPtr e .nil } (.ret (delOut op (some v)))
  | deC_fail (s op k e v own) : TStep t s (.deC op k e v own) s (.deT op k e own)
  -- Range with a callback that always continues, libcs/server/sync/map.go:319-350
  | rg_clean (s) : s.m.amended = false → TStep t s (.start .range) s (.rg s.m.read [])
  | rg_slow (s) : s.m.amended = true → TStep t s (.start .range) s (.want .range)
  | rgw (s) : s.mu = none → TStep t s (.want .range) { s with m := s.m.promote } (.rg s.m.promote.read [])
  | rg_skip (s k e td acc) : (s.m.ptr e).load = none → TStep t s (.rg ((k, e) :: td) acc) s (.rg td acc)
  | rg_visit (s k e td acc v) : (s.m.ptr e).load = some v →
      TStep t s (.rg ((k, e) :: td) acc) s (.rg td (acc ++ [(k, v)]))
  | rg_end (s acc) : TStep t s (.rg [] acc) s (.ret (.list acc))

/-- What an observer sees: calls and returns. -/
inductive Ev (K V : Type) where
  | inv (t : Nat) (op : COp K V)
  | ret (t : Nat) (o : Out K V)

/-- The whole system. -/
structure CS (K V : Type) where
  sh : Sh K V
  th : Nat → PC K V

/-- `f` with `f t` replaced. -/
def put {α : Type} (f : Nat → α) (t : Nat) (x : α) : Nat → α := fun u => if u = t then x else f u

/-- One step of the system, with the visible event if there is one. -/
inductive Step : CS K V → Option (Ev K V) → CS K V → Prop
  | inv (s t op) : s.th t = .idle → Step s (some (.inv t op)) { s with th := put s.th t (.start op) }
  | ret (s t o) : s.th t = .ret o → Step s (some (.ret t o)) { s with th := put s.th t .idle }
  | int (s t sh' pc') : TStep t s.sh (s.th t) sh' pc' → Step s none ⟨sh', put s.th t pc'⟩

/-- Append the event, if any. -/
def app {α : Type} (l : List α) : Option α → List α
  | none => l
  | some x => l ++ [x]

/-- `Exec tr s`: the system can produce the events `tr` and be in state `s`. -/
inductive Exec : List (Ev K V) → CS K V → Prop
  | init : Exec [] ⟨⟨empty, none, none⟩, fun _ => .idle⟩
  | step (tr s l s') : Exec tr s → Step s l s' → Exec (app tr l) s'

/-! ## Specification: a plain map whose calls take effect at one instant -/

/-- `f` with `k` bound to `x`. -/
def bind (f : K → Option V) (k : K) (x : Option V) : K → Option V := fun k' => if k' = k then x else f k'

/-- What a call does to a plain map `f`: result `o`, new map `g`. -/
def CSpec (f : K → Option V) : COp K V → Out K V → (K → Option V) → Prop
  | .load k, o, g => o = .opt (f k) ∧ g = f
  | .store k v, o, g => o = .unit ∧ g = bind f k (some v)
  | .loadOrCreate k vals, o, g =>
    (∃ w, f k = some w ∧ o = .pair w true ∧ g = f) ∨
    (f k = none ∧ ∃ v ∈ vals, o = .pair v false ∧ g = bind f k (some v))
  | .loadAndDelete k, o, g => o = .opt (f k) ∧ g = bind f k none
  | .delete k, o, g => o = .unit ∧ g = bind f k none
  | .range, _, _ => False

/-- `Range` is not atomic: no key twice, and what it shows for a key was the state of that key at some
moment of the call (`seen`: the maps there were since the call began). -/
def RangeOK (seen : (K → Option V) → Prop) (l : AMap K V) : Prop :=
  l.keys.Nodup ∧ ∀ k, ∃ h, seen h ∧ h k = l.get k

/-- A thread of the specification. -/
inductive AT (K V : Type) where
  | idle
  /-- called, not yet taken effect; the maps there were since the call -/
  | pend (op : COp K V) (seen : (K → Option V) → Prop)
  /-- taken effect, result fixed -/
  | done (o : Out K V)

structure AS (K V : Type) where
  f : K → Option V
  th : Nat → AT K V

/-- The calls in progress see the new map. -/
def AT.push (g : K → Option V) : AT K V → AT K V
  | .pend op S => .pend op (fun h => S h ∨ h = g)
  | a => a

/-- The atomic object: a call takes effect at one instant between its invocation and its return. -/
inductive AStep : AS K V → Option (Ev K V) → AS K V → Prop
  | inv (a t op) : a.th t = .idle →
      AStep a (some (.inv t op)) { a with th := put a.th t (.pend op (fun h => h = a.f)) }
  | lin (a t op S o g) : a.th t = .pend op S → CSpec a.f op o g →
      AStep a none ⟨g, put (fun u => (a.th u).push g) t (.done o)⟩
  | rng (a t S l) : a.th t = .pend .range S → RangeOK S l →
      AStep a none { a with th := put a.th t (.done (.list l)) }
  | ret (a t o) : a.th t = .done o → AStep a (some (.ret t o)) { a with th := put a.th t .idle }

/-- `AExec tr a`: the atomic object, starting as the empty map, can produce the events `tr`. -/
inductive AExec : List (Ev K V) → AS K V → Prop
  | init : AExec [] ⟨fun _ => none, fun _ => .idle⟩
  | step (tr a l a') : AExec tr a → AStep a l a' → AExec (app tr l) a'

end Verif.SyncMap
