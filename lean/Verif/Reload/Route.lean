import Verif.Common
set_option linter.unusedSimpArgs false
set_option linter.unusedVariables false
/-!
# C63: visitors while a client reloads its services
(libcs/client/client.go:631-715, 899-992; libcs/client/conn.go:60-71, 248-268, 285-302;
libcs/server/client.go:78-97, 105-265; libcs/server/conn.go:255-270, 307-320, 490-520)

The server tells the client which service a visitor wants by its *index* in a list of services. A configuration is a
number; the index the server sends belongs to the configuration the server routes by, and the client looks it up in the
list its tunnel holds. The visitor reaches the right service if both are the same configuration.

Every tunnel is a pair of queues. Each event is one atomic step of one side; the two sides and the tunnels interleave
arbitrarily.
-/
namespace Verif.Reload.Route

/-- What the client sends: the first handshake (libcs/client/conn.go:60-71), or a new list of services
(libcs/client/client.go:960-983). -/
inductive Up where
  | hello (c : Nat)
  | services (c : Nat)
deriving DecidableEq, Repr

/-- What the server sends. `visit c`: the first frame of a visitor, with an index of configuration `c`. -/
inductive Down where
  | ready
  | services
  | close
  | error
  | visit (c : Nat)
deriving DecidableEq, Repr

/-- Where `ReloadServices` is: not running; between storing the new services and locking the tunnels
(libcs/client/client.go:968-975); waiting for the answers. -/
inductive Phase where
  | idle | stored | sent
deriving DecidableEq, Repr

structure St where
  /-- the services of the client (`Client.services`) -/
  cur : Nat
  phase : Phase
  /-- tunnels whose answer `reloadWaitGroup` waits for -/
  waiting : List Nat
  /-- connections made so far, those still open -/
  used : List Nat
  alive : List Nat
  /-- `Client.tunnels` -/
  cTun : List Nat
  /-- `conn.services` of each tunnel; `none` is the nil pointer -/
  cSvc : Nat → Option Nat
  up : Nat → List Up
  down : Nat → List Down
  /-- a tunnel that the server registered and has not answered yet, and the answer -/
  owe : Nat → Option Down
  /-- the configuration the server routes by (`lastProcessedChecksum`), if it knows the client -/
  ver : Option Nat
  /-- `client.tunnels` of the server and `conn.configChecksum` -/
  sTun : List Nat
  sCk : Nat → Nat
  /-- `checksumBlacklist` -/
  black : List Nat
  /-- visitors whose host has been looked up, and the configuration the index is from -/
  visitors : List Nat
  /-- visits that reached the client: the configuration of the index, and the one it was looked up in (`none`: the
  client dereferences a nil pointer) -/
  log : List (Nat × Option Nat)

def init (c : Nat) : St where
  cur := c
  phase := .idle
  waiting := []
  used := []
  alive := []
  cTun := []
  cSvc := fun _ => none
  up := fun _ => []
  down := fun _ => []
  owe := fun _ => none
  ver := none
  sTun := []
  sCk := fun _ => 0
  black := []
  visitors := []
  log := []

def upd {α} (f : Nat → α) (t : Nat) (x : α) : Nat → α := fun y => if y = t then x else f y

inductive Ev where
  /-- the client opens a tunnel -/
  | connect (t : Nat)
  /-- the server handles the next message of a tunnel, the client does -/
  | sRecv (t : Nat)
  /-- the server answers a tunnel it has registered (libcs/server/conn.go:510-514; no lock is held any more) -/
  | sAnswer (t : Nat)
  | cRecv (t : Nat)
  /-- a connection breaks; the server notices -/
  | lose (t : Nat)
  | sLose (t : Nat)
  /-- the oldest entry of the blacklist expires (libcs/server/client.go:229-231) -/
  | unblack
  | reloadStore (c : Nat)
  | reloadSend
  | reloadEnd
  /-- a visitor's host is looked up; the `k`-th visitor looked up is handed to a tunnel -/
  | lookup
  | dispatch (k t : Nat)
deriving DecidableEq, Repr

/-- Append to the queue of an open connection. -/
def send (s : St) (t : Nat) (m : Down) : St :=
  if t ∈ s.alive then { s with down := upd s.down t (s.down t ++ [m]) } else s

/-- The connection is gone: `removeTunnel`, queues dropped. -/
def drop (s : St) (t : Nat) : St :=
  { s with
    alive := s.alive.filter (· ≠ t)
    cTun := s.cTun.filter (· ≠ t)
    up := upd s.up t []
    down := upd s.down t []
    owe := upd s.owe t none }

/-- The server refuses a blacklisted configuration if a tunnel with another one is registered
(libcs/server/client.go:122-147). -/
def refused (s : St) (c : Nat) : Bool := decide (c ∈ s.black) && s.sTun.any (fun t => s.sCk t != c)

def insertT (l : List Nat) (t : Nat) : List Nat := if t ∈ l then l else l ++ [t]

/-- libcs/server/client.go:105-265 `addTunnel`, for `reload = false`. The answer will be `SendReadySignal`
(libcs/server/conn.go:511).
Simplified: the limits are not reached, the host prefixes do not conflict with other clients (C24, C25), and the routes
afterwards are exactly those of the new configuration. -/
def hello (s : St) (t c : Nat) : St :=
  if refused s c then send s t .error
  else if s.ver = some c then { s with sTun := insertT s.sTun t, sCk := upd s.sCk t c, owe := upd s.owe t (some .ready) }
  else
    let old := s.sTun.filter (fun x => s.sCk x != c)
    let s := old.foldl (fun s x => send s x .close) s
    { s with
      ver := some c
      sTun := insertT (s.sTun.filter (fun x => s.sCk x == c)) t
      sCk := upd s.sCk t c
      black := if old = [] then s.black else (old.map s.sCk).eraseDups ++ s.black
      owe := upd s.owe t (some .ready) }

/-- The same for `reload = true`; the answer will be `SendServicesSignal` (libcs/server/conn.go:513). -/
def reload (s : St) (t c : Nat) : St :=
  if refused s c then send s t .error
  else { s with
    ver := some c
    sTun := insertT s.sTun t
    sCk := upd s.sCk t c
    owe := upd s.owe t (some .services) }

def step (s : St) : Ev → St
  -- `initConn` needs `initConnMtx`, which `ReloadServices` holds (libcs/client/client.go:632, 968)
  | .connect t =>
    if t ∈ s.used ∨ s.phase ≠ .idle then s
    else { s with used := t :: s.used, alive := t :: s.alive, up := upd s.up t [.hello s.cur] }
  -- one goroutine per tunnel: the next message is read after the answer
  | .sRecv t =>
    if s.owe t ≠ none then s
    else match s.up t with
    | [] => s
    | .hello c :: r => hello { s with up := upd s.up t r } t c
    | .services c :: r => reload { s with up := upd s.up t r } t c
  | .sAnswer t =>
    match s.owe t with
    | none => s
    | some m => send { s with owe := upd s.owe t none } t m
  | .cRecv t =>
    match s.down t with
    | [] => s
    | .ready :: r =>
      -- `addTunnel` needs `tunnelsRWMtx` (libcs/client/client.go:710), which `ReloadServices` holds while it waits (975)
      if s.phase = .sent then s
      else { s with down := upd s.down t r, cTun := insertT s.cTun t, cSvc := upd s.cSvc t (some s.cur) }
    | .services :: r =>
      { s with down := upd s.down t r, cSvc := upd s.cSvc t (some s.cur), waiting := s.waiting.filter (· ≠ t) }
    | .close :: _ => drop s t
    | .error :: _ => drop { s with waiting := s.waiting.filter (· ≠ t) } t
    | .visit c :: r =>
      match s.cSvc t with
      | some x => { s with down := upd s.down t r, log := s.log ++ [(c, some x)] }
      | none => drop { s with log := s.log ++ [(c, none)] } t
  | .lose t => drop s t
  | .sLose t =>
    if t ∈ s.alive then s
    else if t ∈ s.sTun then
      let l := s.sTun.filter (· ≠ t)
      if l = [] then { s with sTun := [], ver := none, black := [] } else { s with sTun := l }
    else s
  | .unblack => { s with black := s.black.dropLast }
  | .reloadStore c => if s.phase = .idle ∧ c ≠ s.cur then { s with phase := .stored, cur := c } else s
  | .reloadSend =>
    if s.phase = .stored then
      { s with
        phase := .sent
        waiting := s.cTun
        up := fun t => if t ∈ s.cTun then s.up t ++ [.services s.cur] else s.up t }
    else s
  | .reloadEnd => if s.phase = .sent ∧ s.waiting = [] then { s with phase := .idle } else s
  | .lookup => match s.ver with
    | some c => { s with visitors := s.visitors ++ [c] }
    | none => s
  | .dispatch k t =>
    match s.visitors[k]? with
    | none => s
    | some c => if t ∈ s.sTun then send { s with visitors := s.visitors.eraseIdx k } t (.visit c) else s

def run (s : St) : List Ev → St
  | [] => s
  | e :: es => run (step s e) es

/-! ## Specification -/

/-- Every visit was looked up in the configuration its index belongs to. -/
def Right (s : St) : Prop := ∀ x ∈ s.log, x.2 = some x.1

def Down.isVisit : Down → Bool
  | .visit _ => true
  | _ => false

/-- Nothing is being set up: no reload runs, no handshake or answer to one is on its way. -/
def Settled (s : St) : Prop :=
  s.phase = .idle ∧ (∀ t, s.up t = []) ∧ (∀ t, s.owe t = none) ∧ ∀ t, ∀ m ∈ s.down t, m.isVisit = true

/-- No visitor is on its way. -/
def NoVisits (s : St) : Prop := s.visitors = [] ∧ ∀ t, ∀ m ∈ s.down t, m.isVisit = false

/-- Visitors arrive, and are handed to a tunnel, only when nothing is being set up; tunnels are opened when no visitor
is waiting for one; a reload starts when nothing is being set up and no visitor is on its way. -/
def Ev.calm (s : St) : Ev → Prop
  | .connect _ => s.visitors = []
  | .reloadStore _ => Settled s ∧ NoVisits s
  | .lookup => Settled s
  | .dispatch _ _ => Settled s
  | _ => True

def Calm (s : St) : List Ev → Prop
  | [] => True
  | e :: es => e.calm s ∧ Calm (step s e) es

end Verif.Reload.Route
