import Verif.Common
import Verif.AMap
/-! # Public TCP ports (model)

Models `libcs/server/client.go` 343-457 (`closeTCPListeners`, `deleteTCPListener`, `portsManager`,
`openTCPPort`, `openSpecifiedTCPPort`) and `libcs/server/conn.go` 1103-1171 (`processTCPOptions`).

Simplifications: one call of `processTCPOptions`, and one departure of a client's last tunnel, is atomic
(the client's `tunnelsRWMtx` is held around both; two *different* clients sharing a pool can interleave in
the code — see `Ports/Race.lean` for that interleaving).  The operating system is an environment: whether a
bind succeeds is arbitrary for every attempt (the code binds with SO_REUSEPORT, so a port that is already
open does not make it fail), and so is the order in which Go's map iteration visits the pool.  Log output
and the accept loops are not modelled.  Port numbers are naturals (`uint16` values). -/

namespace Verif.Ports
open Verif

/-- server/conn.go `openTCPOption`: what the client asks for at one service index. -/
structure Opt where
  port : Nat
  random : Bool
deriving Repr, DecidableEq

/-- libcs/server/client.go:388-391 `tcpListener`; `sock` is the field `l` (handle and bound port of the
listener object, open or not), `opt` the field `port`. -/
structure Lis where
  sock : Option (Nat × Nat)
  opt : Opt
deriving Repr, DecidableEq

/-- The state: free ports of each pool (`portsManager.ports`), the `tcpListeners` map of each client
object, which client objects lost their last tunnel, and — as the observable effect — the sockets that
are open: handle ↦ (port, client, service index). -/
structure St where
  pool : Nat → List Nat
  ls : Nat → AMap Nat Lis
  dead : Nat → Bool
  socks : AMap Nat (Nat × Nat × Nat)
  next : Nat

/-- One call's environment: `bind k` says whether the k-th bind of the call succeeds (0 is the requested
port), `order` is the iteration order of the pool map. -/
structure Env where
  bind : Nat → Bool
  order : List Nat

/-- Free ports of pool `q` replaced. -/
def setPool (s : St) (q : Nat) (ps : List Nat) : St :=
  { s with pool := fun q' => if q' = q then ps else s.pool q' }

/-- Listener map of client `c` replaced. -/
def setLs (s : St) (c : Nat) (m : AMap Nat Lis) : St :=
  { s with ls := fun c' => if c' = c then m else s.ls c' }

/-- `ports[port] = struct{}{}` under `portsMtx` (libcs/server/client.go:353-355, 374-376; libcs/server/conn.go:1133-1135). -/
def giveBack (s : St) (q port : Nat) : St :=
  setPool s q (if port ∈ s.pool q then s.pool q else port :: s.pool q)

/-- `l.l.Close()`. -/
def closeSock (s : St) (h : Nat) : St := { s with socks := AMap.del s.socks h }

/-- The two together (libcs/server/client.go:350-357, 371-378; libcs/server/conn.go:1128-1137): the port goes back first. -/
def release (s : St) (q h port : Nat) : St := closeSock (giveBack s q port) h

/-- libcs/server/client.go:436-457 `openSpecifiedTCPPort` after a successful bind, and the `delete` of the
caller (libcs/server/client.go:406-408, 421-424): a new socket, stored in the listener entry. -/
def doOpen (P : Nat → Nat) (s : St) (c si : Nat) (opt : Opt) (port : Nat) : St :=
  { s with
    pool := fun q' => if q' = P c then (s.pool q').filter (· ≠ port) else s.pool q'
    ls := fun c' => if c' = c then AMap.set (s.ls c) si { sock := some (s.next, port), opt := opt } else s.ls c'
    socks := AMap.set s.socks s.next (port, c, si)
    next := s.next + 1 }

/-- libcs/server/client.go:418-431: at most three of the free ports are tried, in iteration order. -/
def firstBind (bind : Nat → Bool) : Nat → List Nat → Option Nat
  | _, [] => none
  | k, p :: r => if 3 ≤ k then none else if bind (k + 1) then some p else firstBind bind (k + 1) r

/-- libcs/server/client.go:393-434 `openTCPPort`: which port is chosen.  Note that the options are those of the
*listener entry* (`l.port`), not those of the request being processed. -/
def choosePort (free : List Nat) (opt : Opt) (env : Env) : Option Nat :=
  if free.isEmpty then none
  else if decide (opt.port ∈ free) && env.bind 0 then some opt.port
  else if !opt.random then none
  else firstBind env.bind 0 (env.order.filter (fun p => decide (p ∈ free)))

/-- libcs/server/client.go:393-434 `openTCPPort`. -/
def openTCPPort (P : Nat → Nat) (s : St) (c si : Nat) (l : Lis) (env : Env) : Option Nat × St :=
  match choosePort (s.pool (P c)) l.opt env with
  | some p => (some p, doOpen P s c si l.opt p)
  | none => (none, s)

/-- libcs/server/client.go:363-381 `deleteTCPListener`. -/
def deleteLis (P : Nat → Nat) (s : St) (c si : Nat) : St :=
  match AMap.get (s.ls c) si with
  | none => s
  | some l =>
    let s := setLs s c (AMap.del (s.ls c) si)
    match l.sock with
    | none => s
    | some (h, p) => release s (P c) h p

/-- `for _, si := range … { cli.deleteTCPListener(si) }` (libcs/server/conn.go:1107-1109, 1168-1170). -/
def deleteMany (P : Nat → Nat) (s : St) (c : Nat) : List Nat → St
  | [] => s
  | si :: r => deleteMany P (deleteLis P s c si) c r

/-- How `processTCPOptions` ends: the announcements `SendInfoTCPPortOpened(si, port)` it sends, or the
service index it failed at and whether that index had a listener before the call. -/
inductive Res
  | ok (announced : List (Nat × Nat))
  | failed (si : Nat) (had : Bool)
deriving Repr, DecidableEq

/-- libcs/server/conn.go:1113-1117: `LoadOrCreate` of the entry. -/
def loadOrCreate (s : St) (c si : Nat) (o : Opt) : Lis × St :=
  match AMap.get (s.ls c) si with
  | some l => (l, s)
  | none =>
    let l : Lis := { sock := none, opt := o }
    (l, setLs s c (AMap.set (s.ls c) si l))

/-- libcs/server/conn.go:1112-1158: the loop over `o.ports` (1119-1140: an existing listener is kept if its
port is the requested one or the request is random, otherwise its port goes back and it is closed).  `succ` is `success`, `ann` the announcements so
far. -/
def loop (P : Nat → Nat) (c : Nat) (env : Nat → Env) :
    St → List (Nat × Opt) → List Nat → List (Nat × Nat) → Res × St
  | s, [], _, ann => (.ok ann, s)
  | s, (si, o) :: r, succ, ann =>
    let lc := loadOrCreate s c si o
    let l := lc.1
    let s := lc.2
    match l.sock with
    | none =>
      match openTCPPort P s c si l (env si) with
      | (some p, s) => loop P c env s r (succ ++ [si]) (ann ++ [(si, p)])
      | (none, s) => (.failed si false, deleteMany P s c succ)
    | some (h, port) =>
      if decide (port = o.port) || o.random then loop P c env s r succ (ann ++ [(si, port)])
      else
        match openTCPPort P (release s (P c) h port) c si l (env si) with
        | (some p, s) => loop P c env s r (succ ++ [si]) (ann ++ [(si, p)])
        | (none, s) => (.failed si true, deleteMany P s c succ)

/-- libcs/server/conn.go:1159-1167: service indexes of the listener map that the request does not contain. -/
def oldIndexes (m : AMap Nat Lis) (opts : List (Nat × Opt)) : List Nat :=
  (AMap.keys m).filter (fun si => decide (si ∉ AMap.keys opts))

/-- libcs/server/conn.go:1103-1171 `processTCPOptions`. -/
def processTCP (P : Nat → Nat) (s : St) (c : Nat) (opts : List (Nat × Opt)) (env : Nat → Env) : Res × St :=
  match loop P c env s opts [] [] with
  | (.ok ann, s) => (.ok ann, deleteMany P s c (oldIndexes (s.ls c) opts))
  | (r, s) => (r, s)

/-- libcs/server/client.go:343-361 `closeTCPListeners`: every listener is closed, its entry stays. -/
def closeEntries (P : Nat → Nat) (c : Nat) : St → List (Nat × Lis) → St
  | s, [] => s
  | s, (_, l) :: r =>
    match l.sock with
    | none => closeEntries P c s r
    | some (h, p) => closeEntries P c (release s (P c) h p) r

/-- libcs/server/client.go:269-287 `removeTunnel` of the last tunnel: the client object is detached
(`c.tunnels = nil`: every later `addTunnel` on it returns without effect, libcs/server/client.go:118-120) and its
listeners are closed. -/
def lastTunnelLeft (P : Nat → Nat) (s : St) (c : Nat) : St :=
  let s' := closeEntries P c s (s.ls c)
  { s' with dead := fun c' => if c' = c then true else s'.dead c' }

/-- What can happen: a (re)registration of client object `c` with TCP options, or its last tunnel
leaving. -/
inductive Ev
  | process (c : Nat) (opts : List (Nat × Opt)) (env : Nat → Env)
  | leave (c : Nat)

/-- One event; a detached client object is never processed again. -/
def step (P : Nat → Nat) (s : St) : Ev → Option Res × St
  | .process c opts env =>
    if s.dead c then (none, s) else
      let r := processTCP P s c opts env
      (some r.1, r.2)
  | .leave c => if s.dead c then (none, s) else (none, lastTunnelLeft P s c)

/-- A history, with the results of its events. -/
def run (P : Nat → Nat) : St → List Ev → List (Option Res) × St
  | s, [] => ([], s)
  | s, e :: r =>
    let a := step P s e
    let b := run P a.2 r
    (a.1 :: b.1, b.2)

/-- The state after `Start`: the pools as configured, no listener. -/
def start (cfg : Nat → List Nat) : St :=
  { pool := cfg, ls := fun _ => [], dead := fun _ => false, socks := [], next := 0 }

/-! ## Specification -/

/-- Port `p` is open for client `c` at service index `si`. -/
def OpenFor (s : St) (p c si : Nat) : Prop := ∃ h, AMap.get s.socks h = some (p, c, si)

/-- Two different open sockets never have the same port. -/
def NoDoubleOpen (s : St) : Prop :=
  ∀ h h' p c si c' si', AMap.get s.socks h = some (p, c, si) → AMap.get s.socks h' = some (p, c', si') → h = h'

/-- Free ports and open ports of each pool partition its configured set. -/
def Partition (P : Nat → Nat) (cfg : Nat → List Nat) (s : St) : Prop :=
  ∀ q p, (p ∈ cfg q ↔ (p ∈ s.pool q ∨ ∃ c si, OpenFor s p c si ∧ P c = q)) ∧
    ¬ (p ∈ s.pool q ∧ ∃ c si, OpenFor s p c si ∧ P c = q)

/-- An event of the history fails to reopen the port of a service index that already had a listener. -/
def ReopenFails (rs : List (Option Res)) : Prop := ∃ si, some (Res.failed si true) ∈ rs

end Verif.Ports
