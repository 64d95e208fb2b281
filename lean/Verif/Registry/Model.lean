import Verif.AMap
/-!
# Clients, tunnels, host prefixes and users of the server
(libcs/server/server.go:731-900, libcs/server/client.go:57-317, libcs/server/conn.go:327-594)

Granularity. `client.addTunnel` and `client.removeTunnel` run under the client's lock and are one step here;
in the code the operations of *different* clients on the prefix registry can interleave inside them. The
authentication of a handshake and its `addTunnel` are separate steps, so that other tunnels may join or
leave in between. Opening TCP ports (`processTCPOptions`) is an oracle bit of the join step; the ports
themselves are in `Verif.Ports`. Checksums (`[32]byte`) are numbers, 0 being the zero array.
-/
namespace Verif.Registry
open Verif

/-- libcs/server/conn.go:608-611 `hostPrefixOption`. -/
structure Opt where
  idx : Nat
  tls : Bool
deriving DecidableEq, Repr

/-- libcs/server/conn.go:597-601 `options` (of the ports only their number). -/
structure Options where
  ids : AMap String Opt
  cs : Nat
  nports : Nat
deriving DecidableEq, Repr

/-- libcs/server/config.go:155-165 `user`, the fields used here. -/
structure User where
  secret : String
  temp : Bool
  conns : Nat
  hasPM : Bool
deriving DecidableEq, Repr

/-- libcs/server/server.go:370-382: which authentication is used. `api` asks an external service. -/
inductive Mode where
  | config | anyNoUsers | anyWithUsers | api
deriving DecidableEq, Repr

/-- libcs/server/client.go:33-55 `client`. `tunnels = none` is the nil map. -/
structure Cli where
  id : String
  tunnels : Option (List Nat)
  conns : Nat
  hasPM : Bool
  last : Nat
  black : List Nat
deriving DecidableEq, Repr

/-- Progress of a connection through `handleTunnelLoop` (libcs/server/conn.go:327-347). -/
inductive Phase where
  | fresh
  /-- authenticated, about to call `addTunnel`; `reload` for a services request on a live tunnel -/
  | authed (id : String) (u : User) (o : Options) (reload : Bool)
  | up
  | gone
deriving DecidableEq, Repr

/-- A tunnel connection: `conn.ids`, `conn.configChecksum`, and the `clients` set of `handleTunnelLoop`. -/
structure Tun where
  ids : AMap String Opt
  cs : Nat
  phase : Phase
  clis : List Nat
deriving DecidableEq, Repr

/-- The parts of `Server` involved. `reg` joins `hostPrefix2Client` and `tlsHostPrefix2Client` (the Boolean
of the key says which); a client object is named by a number. `apiCreds` is what `apiServer.ID()` and
`Secret()` return (libcs/server/api/server.go:52-70: empty strings outside a check). -/
structure Srv where
  mode : Mode
  tempUser : User
  users : AMap String User
  apiOn : Bool
  apiCreds : String × String
  id2cli : AMap String Nat
  clis : AMap Nat Cli
  nextCli : Nat
  reg : AMap (String × Bool) (Nat × Nat)
  tuns : AMap Nat Tun
deriving Repr

/-! ## Authentication -/

/-- libcs/server/api/server.go:122-126 `Auth`, guarded by `s.apiServer != nil`. -/
def apiAuth (s : Srv) (id sec : String) : Bool := s.apiOn && id = s.apiCreds.1 && sec = s.apiCreds.2

/-- libcs/server/config.go:216-231 `users.auth`. -/
def usersAuth (s : Srv) (id sec : String) : Option User :=
  match s.users.get id with
  | some u => if u.secret = sec then some u else none
  | none => none

/-- libcs/server/server.go:797-811 `authUserWithConfig`. -/
def authConfig (s : Srv) (id sec : String) : Option User :=
  if id.length < 1 ∨ sec.length < 1 then none
  else
    match usersAuth s id sec with
    | some u => some u
    | none => if apiAuth s id sec then some s.tempUser else none

/-- libcs/server/server.go:823-850 `authUserWithAPI`; `ans` is the answer of the external service, `none` if the
request failed. -/
def authApi (s : Srv) (id sec : String) (ans : Option Bool) : Option User :=
  if id.length < 1 ∨ sec.length < 1 then none
  else
    match ans with
    | none => none
    | some true => some s.tempUser
    | some false => if apiAuth s id sec then some s.tempUser else none

/-- libcs/server/server.go:852-880 `authUserOrCreateUser`: the decision and the new user table. -/
def authCreate (s : Srv) (id sec : String) : Option User × AMap String User :=
  if apiAuth s id sec then (some s.tempUser, s.users)
  else
    match s.users.get id with
    | some u => (if u.secret = sec then some u else none, s.users)
    | none =>
      let u := { s.tempUser with secret := sec, temp := true }
      (some u, s.users.set id u)

/-- libcs/server/conn.go:397-447 and libcs/server/server.go:370-382: authentication of a handshake. -/
def auth (s : Srv) (id sec : String) (ok : Option Bool) : Option User × Srv :=
  match s.mode with
  | .config => (authConfig s id sec, s)
  | .api => (authApi s id sec ok, s)
  | .anyNoUsers | .anyWithUsers => ((authCreate s id sec).1, { s with users := (authCreate s id sec).2 })

/-! ## Host prefixes -/

/-- libcs/server/conn.go:528-571: register the prefixes one by one, keeping those added for the roll-back. The
result is the registry and whether all were registered. -/
def regAdd (cid : Nat) : AMap String Opt → AMap (String × Bool) (Nat × Nat) → List (String × Bool) →
    AMap (String × Bool) (Nat × Nat) × Bool
  | [], reg, _ => (reg, true)
  | (p, o) :: r, reg, rb =>
    match reg.get (p, o.tls) with
    | some (c, _) =>
      if c = cid then regAdd cid r reg rb
      else (rb.foldl (fun m k => m.del k) reg, false)
    | none => regAdd cid r (reg.set (p, o.tls) (cid, o.idx)) ((p, o.tls) :: rb)

/-- libcs/server/conn.go:573-589, and libcs/server/client.go:206-262 for the prefixes of closed tunnels: remove the
old prefixes that the new options no longer contain (or contain with another TLS flag), update those with
another service index. -/
def prune (cid : Nat) (new : AMap String Opt) :
    AMap String Opt → AMap (String × Bool) (Nat × Nat) → AMap (String × Bool) (Nat × Nat)
  | [], reg => reg
  | (p, oo) :: r, reg =>
    let reg := match new.get p with
      | none => reg.del (p, oo.tls)
      | some o =>
        if oo.tls ≠ o.tls then reg.del (p, oo.tls)
        else if oo.idx ≠ o.idx then reg.set (p, oo.tls) (cid, o.idx)
        else reg
    prune cid new r reg

/-- libcs/server/client.go:277-285: `removeHostPrefix` for every prefix of the tunnel. -/
def removeAll : AMap String Opt → AMap (String × Bool) (Nat × Nat) → AMap (String × Bool) (Nat × Nat)
  | [], reg => reg
  | (p, o) :: r, reg => removeAll r (reg.del (p, o.tls))

/-! ## Clients -/

/-- libcs/server/server.go:882-898: the three `removeClient` variants. -/
def removeClient (s : Srv) (id : String) : Srv :=
  match s.mode with
  | .config | .api => { s with id2cli := s.id2cli.del id }
  | .anyNoUsers => { s with id2cli := s.id2cli.del id, users := s.users.del id }
  | .anyWithUsers =>
    match s.users.get id with
    | some u =>
      if u.temp then { s with id2cli := s.id2cli.del id, users := s.users.del id }
      else { s with id2cli := s.id2cli.del id }
    | none => { s with id2cli := s.id2cli.del id }

def setCli (s : Srv) (c : Nat) (x : Cli) : Srv := { s with clis := s.clis.set c x }
def setTun (s : Srv) (t : Nat) (x : Tun) : Srv := { s with tuns := s.tuns.set t x }

/-- libcs/server/client.go:269-288 `removeTunnel` (closing the TCP listeners is not modelled here). -/
def removeTunnel (s : Srv) (c t : Nat) : Srv :=
  match s.clis.get c with
  | none => s
  | some cl =>
    match cl.tunnels with
    | none => s
    | some l =>
      if t ∈ l then
        let l' := l.erase t
        if l'.isEmpty then
          let s := setCli s c { cl with tunnels := none }
          let s := removeClient s cl.id
          match s.tuns.get t with
          | some tt => { s with reg := removeAll tt.ids s.reg }
          | none => s
        else setCli s c { cl with tunnels := some l' }
      else s

/-- Add to the Go map `c.tunnels`. -/
def insertT (l : List Nat) (t : Nat) : List Nat := if t ∈ l then l else l ++ [t]

/-- hashicorp/golang-lru `Add` on a cache of size 3 (newest first). -/
def lruAdd (l : List Nat) (x : Nat) : List Nat := (x :: l.erase x).take 3

inductive AddRes where
  | ok | retry | err
deriving DecidableEq, Repr

/-- Tunnels with another checksum (libcs/server/client.go:189-197). -/
def oldTunnels (s : Srv) (l : List Nat) (cs : Nat) : List Nat :=
  l.filter (fun t => match s.tuns.get t with | some tt => tt.cs ≠ cs | none => false)

/-- libcs/server/client.go:186-264: close the old tunnels, blacklist their checksums, prune their prefixes.
Simplification: the code first merges the changes of old tunnels with the same checksum into one map and
then applies them; here they are applied tunnel by tunnel. -/
def dropOld (s : Srv) (c : Nat) (o : Options) : List Nat → Srv
  | [] => s
  | t :: ts =>
    match s.clis.get c, s.tuns.get t with
    | some cl, some tt =>
      let s := setCli s c { cl with
        tunnels := cl.tunnels.map (fun l => l.erase t)
        black := lruAdd cl.black tt.cs }
      dropOld { s with reg := prune c o.ids tt.ids s.reg } c o ts
    | _, _ => dropOld s c o ts

/-- libcs/server/conn.go:1103-1171 `processTCPOptions`: without port rights any requested port is an error. -/
def portsFail (cl : Cli) (o : Options) (tcpOk : Bool) : Bool :=
  if cl.hasPM then !tcpOk else o.nports != 0

/-- libcs/server/client.go:105-267 `addTunnel`. -/
def addTunnel (s : Srv) (c t : Nat) (reload : Bool) (o : Options) (tcpOk : Bool) : AddRes × Srv :=
  match s.clis.get c, s.tuns.get t with
  | some cl, some tt =>
    if cl.conns ≤ (cl.tunnels.getD []).length then (.err, s)
    else
      match cl.tunnels with
      | none => (.retry, s)
      | some l =>
        if o.cs ∈ cl.black ∧ ¬ (oldTunnels s l o.cs).isEmpty then (.err, s)
        else if cl.last = o.cs then
          (.ok, setTun (setCli s c { cl with tunnels := some (insertT l t) }) t { tt with ids := o.ids, cs := o.cs })
        else
          let s := setCli s c { cl with tunnels := some (insertT l t) }
          match regAdd c o.ids s.reg [] with
          | (reg, false) => (.err, { s with reg := reg })
          | (reg, true) =>
            let s := { s with reg := prune c o.ids tt.ids reg }
            let s := setTun s t { tt with ids := o.ids, cs := o.cs }
            if portsFail cl o tcpOk then (.err, s)
            else
              let s := setCli s c { cl with tunnels := some (insertT l t), last := o.cs }
              if reload then (.ok, s)
              else (.ok, dropOld s c o (oldTunnels s (insertT l t) o.cs))
  | _, _ => (.err, s)

/-- libcs/server/server.go:731-735 `getOrCreateClient`, libcs/server/client.go:62-76 `init`. In the code `init` follows
the creation without a lock; here both are one step. -/
def getOrCreate (s : Srv) (id : String) (u : User) : Nat × Srv :=
  match s.id2cli.get id with
  | some c => (c, s)
  | none =>
    (s.nextCli, { s with
      id2cli := s.id2cli.set id s.nextCli
      clis := s.clis.set s.nextCli ⟨id, some [], u.conns, u.hasPM, 0, []⟩
      nextCli := s.nextCli + 1 })

/-- libcs/server/conn.go:490-508: the retry loop around `getOrCreateClient` and `addTunnel`. -/
def joinLoop (t : Nat) (id : String) (u : User) (reload : Bool) (o : Options) (tcpOk : Bool) :
    Nat → Nat → Srv → Nat × AddRes × Srv
  | 0, c, s => (c, .retry, s)
  | n + 1, _, s =>
    let (c, s) := getOrCreate s id u
    match addTunnel s c t reload o tcpOk with
    | (.retry, s) => joinLoop t id u reload o tcpOk n c s
    | (r, s) => (c, r, s)

/-- libcs/server/conn.go:331-336: the end of `handleTunnelLoop`. -/
def finish (s : Srv) (t : Nat) : Srv :=
  match s.tuns.get t with
  | none => s
  | some tt =>
    let s := tt.clis.foldl (fun s c => removeTunnel s c t) s
    match s.tuns.get t with
    | some tt => setTun s t { tt with phase := .gone }
    | none => s

inductive Ev where
  /-- a connection reaches `handleTunnelLoop` -/
  | accept (t : Nat)
  /-- it presents id, secret and options (again, for a reload); `ok` is the external service's answer -/
  | auth (t : Nat) (id sec : String) (o : Options) (ok : Option Bool)
  /-- its options do not parse -/
  | badOptions (t : Nat)
  /-- `addTunnel`; `tcpOk` says whether the requested TCP ports could be opened -/
  | join (t : Nat) (tcpOk : Bool)
  /-- the connection ends -/
  | close (t : Nat)
  /-- 60 s after an old checksum was blacklisted (libcs/server/client.go:229-231) -/
  | expire (c : Nat)
  /-- the health check starts with random credentials / ends (libcs/server/api/server.go:108-139) -/
  | checkStart (id sec : String)
  | checkEnd
deriving Repr

/-- One step; events that do not apply are ignored. -/
def step (s : Srv) : Ev → Srv
  | .accept t =>
    match s.tuns.get t with
    | none => setTun s t ⟨[], 0, .fresh, []⟩
    | some _ => s
  | .auth t id sec o ok =>
    match s.tuns.get t with
    | some tt =>
      if tt.phase = .fresh ∨ tt.phase = .up then
        match auth s id sec ok with
        | (some u, s') => setTun s' t { tt with phase := .authed id u o (tt.phase = .up) }
        | (none, s') => finish s' t
      else s
    | none => s
  | .badOptions t =>
    match s.tuns.get t with
    | some tt =>
      match tt.phase with
      | .authed _ _ _ _ => finish s t
      | _ => s
    | none => s
  | .join t tcpOk =>
    match s.tuns.get t with
    | some tt =>
      match tt.phase with
      | .authed id u o r =>
        match joinLoop t id u r o tcpOk 5 0 s with
        | (c, res, s) =>
          match s.tuns.get t with
          | some tt =>
            let s := setTun s t { tt with clis := insertT tt.clis c, phase := .up }
            if res = .ok then s else finish s t
          | none => s
      | _ => s
    | none => s
  | .close t =>
    match s.tuns.get t with
    | some tt => if tt.phase = .fresh ∨ tt.phase = .up then finish s t else s
    | none => s
  | .expire c =>
    match s.clis.get c with
    | some cl => setCli s c { cl with black := cl.black.dropLast }
    | none => s
  | .checkStart id sec => if s.apiOn then { s with apiCreds := (id, sec) } else s
  | .checkEnd => { s with apiCreds := ("", "") }

def run (s : Srv) : List Ev → Srv
  | [] => s
  | e :: es => run (step s e) es

/-- A server at start-up: no client, no tunnel, no registered prefix; `users` are the configured ones. -/
def start (mode : Mode) (tempUser : User) (users : AMap String User) (apiOn : Bool) : Srv :=
  ⟨mode, tempUser, users, apiOn, ("", ""), [], [], 0, [], []⟩

/-- libcs/server/client.go:290-317 `getTunnel` over the tunnels in map iteration order with their task counts. -/
def getTunnel (l : List (Nat × Nat)) : Option Nat :=
  match l with
  | [(t, _)] => some t
  | l => go l none
where
  go : List (Nat × Nat) → Option (Nat × Nat) → Option Nat
    | [], best => best.map Prod.fst
    | (t, n) :: r, best =>
      if n = 0 then some t
      else
        match best with
        | none => go r (some (t, n))
        | some (bt, bn) => if n < bn then go r (some (t, n)) else go r (some (bt, bn))

end Verif.Registry
