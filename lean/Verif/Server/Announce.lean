import Verif.Ports.Props
import Verif.Tunnel.Lemmas
set_option linter.unusedSimpArgs false
set_option linter.unusedVariables false
/-!
# C126, C127: what the server tells a client about its registration
(libcs/conn/conn.go:99-320; libcs/client/signal.go:8-105 `handleError`, `handleInfo`; libcs/client/conn.go:200-273;
libcs/server/client.go:105-200 `addTunnel`; libcs/server/conn.go:485-522, 1103-1171)

Part one is the wire: the messages with which the server answers a registration and how the client takes them apart.
Part two is which client program is told the public TCP ports of its services. The log line "tcp port opened" is the only place
where the user of a random port learns its number.
-/
namespace Verif.Server.Announce
open Verif

/-! ## The messages -/

/-- libcs/conn/conn.go:178-199: the errors without parameters. -/
inductive Err where
  | invalidIDAndSecret | reachedMaxConnections | hostNumberLimited | hostConflict | hostRegexMismatch
  | differentConfigClientConnected | reachedMaxOptions | tcpNumberLimited
deriving DecidableEq, Repr

/-- What the server sends about a registration. -/
inductive Msg where
  | ping | close | ready | services
  | err (e : Err)
  /-- the port of service `si` could not be opened -/
  | failedTCP (si : Nat)
  /-- service `si` is reached at the public port `port` -/
  | opened (si port : Nat)
deriving DecidableEq, Repr

/-- libcs/conn/conn.go:126-134: the two bytes after the error signal. -/
def Err.bytes : Err → Bytes
  | .invalidIDAndSecret => [0x00, 0x01]
  | .reachedMaxConnections => [0x00, 0x03]
  | .hostNumberLimited => [0x00, 0x04]
  | .hostConflict => [0x00, 0x05]
  | .hostRegexMismatch => [0x00, 0x06]
  | .differentConfigClientConnected => [0x00, 0x07]
  | .reachedMaxOptions => [0x00, 0x08]
  | .tcpNumberLimited => [0x00, 0x09]

/-- libcs/conn/conn.go:122-137 (the byte strings), 209-320 (the functions that send them). -/
def Msg.enc : Msg → Bytes
  | .ping => [0xFF, 0xFF, 0xFF, 0xFF]
  | .close => [0xFF, 0xFF, 0xFF, 0xFE]
  | .ready => [0xFF, 0xFF, 0xFF, 0xFD]
  | .services => [0xFF, 0xFF, 0xFF, 0xFA]
  | .err e => [0xFF, 0xFF, 0xFF, 0xFC] ++ e.bytes
  | .failedTCP si => [0xFF, 0xFF, 0xFF, 0xFC, 0x00, 0x02] ++ be16 si
  | .opened si port => [0xFF, 0xFF, 0xFF, 0xFB, 0x00, 0x01] ++ be16 si ++ be16 port

/-- What the client makes of the next bytes. -/
inductive Got where
  | msg (m : Msg)
  | unknownError (code : Nat)
  | unknownInfo (code : Nat)
  /-- not one of these signals: a frame of a task (C10), or the reconnect signal -/
  | task (id : Nat)
deriving DecidableEq, Repr

/-- libcs/client/signal.go:8-59 `handleError`, after the signal. -/
def handleError (inp : Bytes) : Option (Got × Bytes) :=
  match Tunnel.u16? inp with
  | none => none
  | some (code, inp) =>
    if code = 1 then some (.msg (.err .invalidIDAndSecret), inp)
    else if code = 2 then
      match Tunnel.u16? inp with
      | none => none
      | some (si, inp) => some (.msg (.failedTCP si), inp)
    else if code = 3 then some (.msg (.err .reachedMaxConnections), inp)
    else if code = 4 then some (.msg (.err .hostNumberLimited), inp)
    else if code = 5 then some (.msg (.err .hostConflict), inp)
    else if code = 6 then some (.msg (.err .hostRegexMismatch), inp)
    else if code = 7 then some (.msg (.err .differentConfigClientConnected), inp)
    else if code = 8 then some (.msg (.err .reachedMaxOptions), inp)
    else if code = 9 then some (.msg (.err .tcpNumberLimited), inp)
    else some (.unknownError code, inp)

/-- libcs/client/signal.go:61-105 `handleInfo`, after the signal. -/
def handleInfo (inp : Bytes) : Option (Got × Bytes) :=
  match Tunnel.u16? inp with
  | none => none
  | some (code, inp) =>
    if code = 1 then
      match Tunnel.u16? inp with
      | none => none
      | some (si, inp) =>
        match Tunnel.u16? inp with
        | none => none
        | some (port, inp) => some (.msg (.opened si port), inp)
    else some (.unknownInfo code, inp)

/-- libcs/client/conn.go:200-273: the signals of one iteration. `none`: the client waits for more bytes. -/
def read (inp : Bytes) : Option (Got × Bytes) :=
  match Tunnel.u32? inp with
  | none => none
  | some (sig, inp) =>
    if sig = Tunnel.sigPing then some (.msg .ping, inp)
    else if sig = Tunnel.sigClose then some (.msg .close, inp)
    else if sig = Tunnel.sigReady then some (.msg .ready, inp)
    else if sig = Tunnel.sigServices then some (.msg .services, inp)
    else if sig = Tunnel.sigError then handleError inp
    else if sig = Tunnel.sigInfo then handleInfo inp
    else some (.task sig, inp)

/-- `n` iterations. -/
def readN : Nat → Bytes → Option (List Got × Bytes)
  | 0, inp => some ([], inp)
  | n + 1, inp =>
    match read inp with
    | none => none
    | some (g, inp) =>
      match readN n inp with
      | none => none
      | some (gs, inp) => some (g :: gs, inp)

/-- libcs/client/signal.go:32-35, 91-95: the local address that is logged with an error or a port, `services` being the
addresses of the services of the client's newest configuration. -/
def localName (services : List Bytes) (si : Nat) : Option Bytes :=
  if si < services.length % 65536 then services[si]? else none

/-- The fields fit in 16 bits. -/
def Msg.Fits : Msg → Prop
  | .failedTCP si => si < 65536
  | .opened si port => si < 65536 ∧ port < 65536
  | _ => True

theorem read_ff (b : UInt8) (r : Bytes) : read (0xFF :: 0xFF :: 0xFF :: b :: r) =
    if b = 0xFF then some (.msg .ping, r) else if b = 0xFE then some (.msg .close, r)
    else if b = 0xFD then some (.msg .ready, r) else if b = 0xFA then some (.msg .services, r)
    else if b = 0xFC then handleError r else if b = 0xFB then handleInfo r
    else some (.task (4294967040 + b.toNat), r) := by
  have e : Tunnel.u32? (0xFF :: 0xFF :: 0xFF :: b :: r) = some (4294967040 + b.toNat, r) := by
    simp [Tunnel.u32?, rd32]
  have hb : ∀ k : UInt8, b = k ↔ b.toNat = k.toNat := fun k => ⟨fun h => by rw [h], fun h => UInt8.toNat_inj.mp h⟩
  unfold read
  rw [e]
  have c1 : (4294967040 + b.toNat = Tunnel.sigPing) ↔ b = 0xFF := by
    rw [hb]; simp only [Tunnel.sigPing]; show _ ↔ b.toNat = 255; omega
  have c2 : (4294967040 + b.toNat = Tunnel.sigClose) ↔ b = 0xFE := by
    rw [hb]; simp only [Tunnel.sigClose]; show _ ↔ b.toNat = 254; omega
  have c3 : (4294967040 + b.toNat = Tunnel.sigReady) ↔ b = 0xFD := by
    rw [hb]; simp only [Tunnel.sigReady]; show _ ↔ b.toNat = 253; omega
  have c4 : (4294967040 + b.toNat = Tunnel.sigServices) ↔ b = 0xFA := by
    rw [hb]; simp only [Tunnel.sigServices]; show _ ↔ b.toNat = 250; omega
  have c5 : (4294967040 + b.toNat = Tunnel.sigError) ↔ b = 0xFC := by
    rw [hb]; simp only [Tunnel.sigError]; show _ ↔ b.toNat = 252; omega
  have c6 : (4294967040 + b.toNat = Tunnel.sigInfo) ↔ b = 0xFB := by
    rw [hb]; simp only [Tunnel.sigInfo]; show _ ↔ b.toNat = 251; omega
  simp only [c1, c2, c3, c4, c5, c6]

theorem read_ping (r : Bytes) : read (0xFF :: 0xFF :: 0xFF :: 0xFF :: r) = some (.msg .ping, r) := by rw [read_ff]; rfl
theorem read_close (r : Bytes) : read (0xFF :: 0xFF :: 0xFF :: 0xFE :: r) = some (.msg .close, r) := by rw [read_ff]; rfl
theorem read_ready (r : Bytes) : read (0xFF :: 0xFF :: 0xFF :: 0xFD :: r) = some (.msg .ready, r) := by rw [read_ff]; rfl
theorem read_services (r : Bytes) : read (0xFF :: 0xFF :: 0xFF :: 0xFA :: r) = some (.msg .services, r) := by
  rw [read_ff]; rfl
theorem read_error (r : Bytes) : read (0xFF :: 0xFF :: 0xFF :: 0xFC :: r) = handleError r := by rw [read_ff]; rfl
theorem read_info (r : Bytes) : read (0xFF :: 0xFF :: 0xFF :: 0xFB :: r) = handleInfo r := by rw [read_ff]; rfl

theorem handleError_2 (r : Bytes) : handleError (0x00 :: 0x02 :: r) = (match Tunnel.u16? r with
    | none => none
    | some (si, inp) => some (.msg (.failedTCP si), inp)) := by
  have e : Tunnel.u16? (0x00 :: 0x02 :: r) = some (2, r) := by simp [Tunnel.u16?, rd16]
  simp only [handleError, e]
  rfl

theorem handleInfo_1 (r : Bytes) : handleInfo (0x00 :: 0x01 :: r) = (match Tunnel.u16? r with
    | none => none
    | some (si, inp) =>
      match Tunnel.u16? inp with
      | none => none
      | some (port, inp) => some (.msg (.opened si port), inp)) := by
  have e : Tunnel.u16? (0x00 :: 0x01 :: r) = some (1, r) := by simp [Tunnel.u16?, rd16]
  simp only [handleInfo, e]
  rfl

theorem read_enc (m : Msg) (hm : m.Fits) (rest : Bytes) : read (m.enc ++ rest) = some (.msg m, rest) := by
  cases m with
  | ping => exact read_ping rest
  | close => exact read_close rest
  | ready => exact read_ready rest
  | services => exact read_services rest
  | err e => exact (read_error (e.bytes ++ rest)).trans (by cases e <;> simp [handleError, Err.bytes, Tunnel.u16?, rd16])
  | failedTCP si =>
    refine (read_error (0x00 :: 0x02 :: (be16 si ++ rest))).trans ?_
    have h1 : handleError (0x00 :: 0x02 :: (be16 si ++ rest)) = (match Tunnel.u16? (be16 si ++ rest) with
      | none => none
      | some (si, inp) => some (.msg (.failedTCP si), inp)) := handleError_2 _
    rw [h1, Tunnel.u16?_be16 hm]
  | opened si port =>
    refine (read_info (0x00 :: 0x01 :: (be16 si ++ (be16 port ++ rest)))).trans ?_
    have h1 : handleInfo (0x00 :: 0x01 :: (be16 si ++ (be16 port ++ rest))) =
      (match Tunnel.u16? (be16 si ++ (be16 port ++ rest)) with
      | none => none
      | some (si, inp) =>
        match Tunnel.u16? inp with
        | none => none
        | some (port, inp) => some (.msg (.opened si port), inp)) := handleInfo_1 _
    rw [h1, Tunnel.u16?_be16 hm.1]
    dsimp only
    rw [Tunnel.u16?_be16 hm.2]

/-- **C126.** Whatever the server says about registrations, the client understands exactly that, in the same order, and the
bytes that follow are left for the frames that follow: no message is taken for another, and none moves the frame boundary. -/
theorem messages_understood (ms : List Msg) (hm : ∀ m ∈ ms, m.Fits) (rest : Bytes) :
    readN ms.length ((ms.map Msg.enc).flatten ++ rest) = some (ms.map Got.msg, rest) := by
  induction ms with
  | nil => rfl
  | cons m ms ih =>
    have h1 : ((m :: ms).map Msg.enc).flatten ++ rest = m.enc ++ ((ms.map Msg.enc).flatten ++ rest) := by
      simp
    rw [h1]
    have h2 := ih (fun x hx => hm x (List.mem_cons_of_mem _ hx))
    show (match read (m.enc ++ ((ms.map Msg.enc).flatten ++ rest)) with
      | none => none
      | some (g, inp) =>
        match readN ms.length inp with
        | none => none
        | some (gs, inp) => some (g :: gs, inp)) = _
    rw [read_enc m (hm m List.mem_cons_self)]
    dsimp only
    rw [h2]
    rfl

/-- **C126.** The first bytes of a message are never a whole message: the client does not act before it has all of it. -/
theorem incomplete_message_waits (m : Msg) (k : Nat) (hk : k < m.enc.length) : read (m.enc.take k) = none := by
  cases m with
  | failedTCP si =>
    have : (Msg.enc (.failedTCP si)).length = 8 := rfl
    rw [this] at hk
    rcases k with _ | _ | _ | _ | _ | _ | _ | _ | k
    · rfl
    · rfl
    · rfl
    · rfl
    · exact read_error _
    · exact read_error _
    · exact (read_error _).trans (handleError_2 _)
    · exact (read_error _).trans (handleError_2 _)
    · omega
  | opened si port =>
    have : (Msg.enc (.opened si port)).length = 10 := rfl
    rw [this] at hk
    rcases k with _ | _ | _ | _ | _ | _ | _ | _ | _ | _ | k
    · rfl
    · rfl
    · rfl
    · rfl
    · exact read_info _
    · exact read_info _
    · exact (read_info _).trans (handleInfo_1 _)
    · exact (read_info _).trans (handleInfo_1 _)
    · exact (read_info _).trans (handleInfo_1 _)
    · exact (read_info _).trans (handleInfo_1 _)
    · omega
  | err e =>
    have : (Msg.enc (.err e)).length = 6 := by cases e <;> rfl
    rw [this] at hk
    rcases k with _ | _ | _ | _ | _ | _ | k
    · rfl
    · rfl
    · rfl
    · rfl
    · exact read_error _
    · cases e <;> exact (read_error _).trans rfl
    · omega
  | _ =>
    have hk : k < 4 := hk
    rcases k with _ | _ | _ | _ | k
    · rfl
    · rfl
    · rfl
    · rfl
    · omega

/-- **C126.** The message names the service it is about, by the address in the client's present configuration. -/
theorem service_is_named (services : List Bytes) (si : Nat) (h : si < services.length) (hl : services.length < 65536) :
    localName services si = some services[si] := by
  unfold localName
  rw [Nat.mod_eq_of_lt hl, if_pos h, List.getElem?_eq_getElem h]

/-- A registration with two ports and its refusal at the third. -/
example : ∀ m ∈ [Msg.opened 1 8080, .opened 3 65535, .failedTCP 4], m.Fits := by
  intro m hm
  simp at hm
  rcases hm with rfl | rfl | rfl <;> simp [Msg.Fits]

/-! ## Which program is told the ports -/

/-- TCP options of a configuration: service index and what it asks for. -/
abbrev Opts := List (Nat × Ports.Opt)

/-- The server's record of one client id and what the client programs with that id have been told. Simplified: the pool of
ports is used by this id only (what clients do to each other's ports is C27); the configuration is its TCP options; joins that
are refused before the ports are looked at (limit of connections, blacklist, host prefixes) have no effect. -/
structure St where
  ports : Ports.St
  /-- the present client object -/
  obj : Nat
  /-- the program and the configuration of each tunnel -/
  tunnels : List (Nat × Opts)
  /-- `lastProcessedChecksum`; `none` for a new client object -/
  last : Option Opts
  /-- the ports each program has been told, by service index -/
  told : Nat → Nat → Option Nat
  /-- some registration failed to open a port -/
  failed : Bool

def init (cfg : Nat → List Nat) : St :=
  { ports := Ports.start cfg, obj := 0, tunnels := [], last := none, told := fun _ _ => none, failed := false }

inductive Ev where
  /-- a new tunnel of program `p` -/
  | join (p : Nat) (opts : Opts) (env : Nat → Ports.Env)
  /-- tunnel `k` re-registers with a new configuration -/
  | reload (k : Nat) (opts : Opts) (env : Nat → Ports.Env)
  /-- tunnel `k` ends -/
  | leave (k : Nat)

/-- A program reads announcements (libcs/client/signal.go:72-100). -/
def hear (f : Nat → Option Nat) : List (Nat × Nat) → Nat → Option Nat
  | [] => f
  | a :: as => hear (fun si => if si = a.1 then some a.2 else f si) as

def tell (s : St) (p : Nat) (ann : List (Nat × Nat)) : Nat → Nat → Option Nat :=
  fun p' => if p' = p then hear (s.told p) ann else s.told p'

def setCfg : List (Nat × Opts) → Nat → Opts → List (Nat × Opts)
  | [], _, _ => []
  | t :: ts, 0, o => (t.1, o) :: ts
  | t :: ts, k + 1, o => t :: setCfg ts k o

/-- libcs/server/client.go:151-200 with libcs/server/conn.go:1103-1171: `addTunnel` of program `p`; `add` is what becomes of
the tunnels. -/
def register (s : St) (p : Nat) (opts : Opts) (env : Nat → Ports.Env) (same new : List (Nat × Opts)) : St :=
  if s.last = some opts then { s with tunnels := same }
  else
    match Ports.step id s.ports (.process s.obj opts env) with
    | (some (.ok ann), ps) => { s with ports := ps, last := some opts, tunnels := new, told := tell s p ann }
    | (_, ps) => { s with ports := ps, failed := true }

def step (s : St) : Ev → St
  -- tunnels with another configuration are told to close when a new one registers (libcs/server/client.go:195-215)
  | .join p opts env => register s p opts env ((p, opts) :: s.tunnels) ((p, opts) :: s.tunnels.filter (fun t => decide (t.2 = opts)))
  | .reload k opts env =>
    match s.tunnels[k]? with
    | none => s
    | some t => register s t.1 opts env (setCfg s.tunnels k opts) (setCfg s.tunnels k opts)
  -- libcs/server/client.go:269-287
  | .leave k =>
    if k < s.tunnels.length then
      if s.tunnels.length = 1 then
        { s with tunnels := [], ports := (Ports.step id s.ports (.leave s.obj)).2, obj := s.obj + 1, last := none }
      else { s with tunnels := s.tunnels.eraseIdx k }
    else s

def run (s : St) : List Ev → St
  | [] => s
  | e :: es => run (step s e) es

/-- Only program `p` uses the id. -/
def OnlyBy (p : Nat) (es : List Ev) : Prop := ∀ e ∈ es, ∀ q opts env, e = .join q opts env → q = p

/-- The requests are Go maps: no service index twice. -/
def Maps (es : List Ev) : Prop :=
  ∀ e ∈ es, (∀ q opts env, e = .join q opts env → (opts.map Prod.fst).Nodup) ∧
    (∀ k opts env, e = .reload k opts env → (opts.map Prod.fst).Nodup)

/-! ### Proofs -/

theorem hear_other {si : Nat} : ∀ (ann : List (Nat × Nat)) (f : Nat → Option Nat), (∀ a ∈ ann, a.1 ≠ si) →
    hear f ann si = f si
  | [], f, _ => rfl
  | a :: as, f, h => by
    have h1 := hear_other as (fun x => if x = a.1 then some a.2 else f x) (fun b hb => h b (List.mem_cons_of_mem _ hb))
    show hear (fun x => if x = a.1 then some a.2 else f x) as si = f si
    rw [h1]
    have := h a List.mem_cons_self
    exact if_neg (fun e : si = a.1 => this e.symm)

theorem hear_mem {si q : Nat} : ∀ (ann : List (Nat × Nat)) (f : Nat → Option Nat), (ann.map Prod.fst).Nodup → (si, q) ∈ ann →
    hear f ann si = some q
  | [], _, _, h => by cases h
  | a :: as, f, hn, h => by
    rw [List.map_cons, List.nodup_cons] at hn
    show hear (fun x => if x = a.1 then some a.2 else f x) as si = some q
    rcases List.mem_cons.mp h with h | h
    · subst h
      rw [hear_other as _ (fun b hb e => hn.1 (by
        have e : b.1 = si := e
        show si ∈ as.map Prod.fst
        rw [← e]; exact List.mem_map_of_mem (f := Prod.fst) hb))]
      simp
    · exact hear_mem as _ hn.2 h

/-- While no registration has failed. -/
structure Inv (cfg : Nat → List Nat) (s : St) : Prop where
  ports : Ports.Inv id cfg Ports.noEx s.ports
  alive : ∀ c, s.obj ≤ c → s.ports.dead c = false
  some_ : s.tunnels ≠ [] → s.last ≠ none

/-- All ports of the last configuration are known to `p`. -/
def Knows (s : St) (p : Nat) : Prop :=
  ∀ opts, s.last = some opts → ∀ o ∈ opts, ∃ q, s.told p o.1 = some q ∧ Ports.OpenFor s.ports q s.obj o.1

theorem register_cases (s : St) (p : Nat) (opts : Opts) (env : Nat → Ports.Env) (same new : List (Nat × Opts))
    (halive : s.ports.dead s.obj = false) :
    (s.last = some opts ∧ register s p opts env same new = { s with tunnels := same }) ∨
    (∃ ann, (Ports.processTCP id s.ports s.obj opts env).1 = .ok ann ∧
      register s p opts env same new =
        { s with ports := (Ports.processTCP id s.ports s.obj opts env).2, last := some opts, tunnels := new,
                 told := tell s p ann }) ∨
    (register s p opts env same new).failed = true := by
  unfold register
  by_cases h : s.last = some opts
  · exact Or.inl ⟨h, by rw [if_pos h]⟩
  · right
    rw [if_neg h]
    simp only [Ports.step, halive, Bool.false_eq_true, if_false]
    cases hr : (Ports.processTCP id s.ports s.obj opts env).1 with
    | ok ann => exact Or.inl ⟨ann, rfl, rfl⟩
    | failed si had => exact Or.inr rfl

theorem register_inv {cfg : Nat → List Nat} {s : St} (h : Inv cfg s) (p : Nat) {opts : Opts}
    (hn : (opts.map Prod.fst).Nodup) (env : Nat → Ports.Env) (same new : List (Nat × Opts))
    (hf : (register s p opts env same new).failed = false) :
    Inv cfg (register s p opts env same new) ∧ (Knows s p → Knows (register s p opts env same new) p) ∧
      (s.last ≠ some opts → Knows (register s p opts env same new) p) := by
  rcases register_cases s p opts env same new (h.alive _ (Nat.le_refl _)) with ⟨hl, he⟩ | ⟨ann, hr, he⟩ | hb
  · rw [he]
    exact ⟨⟨h.ports, h.alive, fun _ => by rw [hl]; simp⟩, fun hk => hk, fun hne => absurd hl hne⟩
  · rw [he]
    obtain ⟨d, hi, hok⟩ := Ports.process_inv (env := env) h.ports (h.alive _ (Nat.le_refl _)) hn
    obtain ⟨w1, w2, w3⟩ := hok ann hr
    have hk : Knows ⟨(Ports.processTCP id s.ports s.obj opts env).2, s.obj, new, some opts, tell s p ann, s.failed⟩ p := by
      intro opts' ho o hm
      have ho : opts = opts' := by simpa using ho
      subst ho
      obtain ⟨q, hq, _⟩ := w3 o hm
      refine ⟨q, ?_, w2 _ hq⟩
      show tell s p ann p o.1 = some q
      unfold tell
      rw [if_pos rfl]
      exact hear_mem ann _ (by rw [w1]; exact hn) hq
    refine ⟨⟨hi ?_, ?_, fun _ => by simp⟩, fun _ => hk, fun _ => hk⟩
    · intro si; rw [hr]; simp
    · intro c hc
      show (Ports.processTCP id s.ports s.obj opts env).2.dead c = false
      rw [d]; exact h.alive c hc
  · rw [hb] at hf; cases hf

theorem leave_inv {cfg : Nat → List Nat} {s : St} (h : Inv cfg s) (k : Nat) :
    Inv cfg (step s (.leave k)) ∧ (∀ p, Knows s p → Knows (step s (.leave k)) p) := by
  show Inv cfg (if k < s.tunnels.length then _ else s) ∧ (∀ p, Knows s p → Knows (if k < s.tunnels.length then _ else s) p)
  split
  · split
    · refine ⟨⟨?_, ?_, fun h => absurd rfl h⟩, fun p hk opts ho => by cases ho⟩
      · have := Ports.run_inv (P := id) (cfg := cfg) (evs := [.leave s.obj]) h.ports
          (by intro e he; simp at he; subst he; trivial)
          (by
            rintro ⟨si, hs⟩
            simp only [Ports.run, Ports.step] at hs
            split at hs <;> simp at hs)
        exact this
      · intro c hc
        have ha := h.alive s.obj (Nat.le_refl _)
        show ((Ports.step id s.ports (.leave s.obj)).2).dead c = false
        simp only [Ports.step, ha, Bool.false_eq_true, if_false, Ports.lastTunnelLeft]
        have hc' : s.obj + 1 ≤ c := hc
        rw [if_neg (by omega)]
        have : ∀ (L : List (Nat × Ports.Lis)) (x : Ports.St), (Ports.closeEntries id s.obj x L).dead = x.dead := by
          intro L
          induction L with
          | nil => intro x; rfl
          | cons e r ih =>
            intro x
            obtain ⟨a, l⟩ := e
            simp only [Ports.closeEntries]
            split
            · exact ih x
            · rw [ih]; rfl
        rw [this]
        exact h.alive c (by omega)
    · refine ⟨⟨h.ports, h.alive, ?_⟩, fun p hk => hk⟩
      intro _
      refine h.some_ ?_
      intro hz
      rename_i h1 h2 h3
      rw [hz] at h1
      simp at h1
  · exact ⟨h, fun p hk => hk⟩

theorem owners_setCfg {p : Nat} : ∀ (ts : List (Nat × Opts)) (k : Nat) (o : Opts), (∀ t ∈ ts, t.1 = p) →
    ∀ t ∈ setCfg ts k o, t.1 = p
  | [], _, _, h => h
  | t :: ts, 0, o, h => by
    intro x hx
    rcases List.mem_cons.mp hx with rfl | hx
    · exact h t List.mem_cons_self
    · exact h x (List.mem_cons_of_mem _ hx)
  | t :: ts, k + 1, o, h => by
    intro x hx
    rcases List.mem_cons.mp hx with rfl | hx
    · exact h x List.mem_cons_self
    · exact owners_setCfg ts k o (fun y hy => h y (List.mem_cons_of_mem _ hy)) x hx

theorem failed_register {s : St} (hf : s.failed = true) (p : Nat) (opts : Opts) (env : Nat → Ports.Env)
    (same new : List (Nat × Opts)) : (register s p opts env same new).failed = true := by
  unfold register
  split
  · exact hf
  · split
    · exact hf
    · rfl

theorem failed_step {s : St} (hf : s.failed = true) (e : Ev) : (step s e).failed = true := by
  cases e with
  | join p opts env => exact failed_register hf ..
  | reload k opts env =>
    simp only [step]
    split
    · exact hf
    · exact failed_register hf ..
  | leave k =>
    simp only [step]
    split
    · split <;> exact hf
    · exact hf

theorem failed_run {s : St} (hf : s.failed = true) (es : List Ev) : (run s es).failed = true := by
  induction es generalizing s with
  | nil => exact hf
  | cons e es ih => exact ih (failed_step hf e)

theorem register_owners {s : St} {p : Nat} (opts : Opts) (env : Nat → Ports.Env) {same new : List (Nat × Opts)}
    (h0 : ∀ t ∈ s.tunnels, t.1 = p) (h1 : ∀ t ∈ same, t.1 = p) (h2 : ∀ t ∈ new, t.1 = p) (q : Nat) :
    ∀ t ∈ (register s q opts env same new).tunnels, t.1 = p := by
  unfold register
  split
  · exact h1
  · split
    · exact h2
    · exact h0

theorem run_inv {cfg : Nat → List Nat} {p : Nat} : ∀ (es : List Ev) (s : St), Inv cfg s → Knows s p →
    (∀ t ∈ s.tunnels, t.1 = p) → OnlyBy p es → Maps es → (run s es).failed = false →
    Inv cfg (run s es) ∧ Knows (run s es) p
  | [], s, h, hk, _, _, _, _ => ⟨h, hk⟩
  | e :: es, s, h, hk, ho, hb, hm, hf => by
    have hf1 : (step s e).failed = false := by
      cases hx : (step s e).failed with
      | false => rfl
      | true =>
        have := failed_run hx es
        rw [show run s (e :: es) = run (step s e) es from rfl, this] at hf
        cases hf
    have hb' : OnlyBy p es := fun x hx => hb x (List.mem_cons_of_mem _ hx)
    have hm' : Maps es := fun x hx => hm x (List.mem_cons_of_mem _ hx)
    have fin : ∀ s', step s e = s' → Inv cfg s' → Knows s' p → (∀ t ∈ s'.tunnels, t.1 = p) →
        Inv cfg (run s (e :: es)) ∧ Knows (run s (e :: es)) p := by
      intro s' he h1 h2 h3
      have hf' : (run s' es).failed = false := by rw [← he]; exact hf
      show Inv cfg (run (step s e) es) ∧ Knows (run (step s e) es) p
      rw [he]
      exact run_inv es s' h1 h2 h3 hb' hm' hf'
    cases e with
    | join q opts env =>
      have hq := hb _ List.mem_cons_self q opts env rfl
      subst hq
      have hn := (hm _ List.mem_cons_self).1 q opts env rfl
      obtain ⟨a, b, _⟩ := register_inv h q hn env _ _ hf1
      refine fin _ rfl a (b hk) ?_
      refine register_owners opts env ho ?_ ?_ q
      · intro t ht
        rcases List.mem_cons.mp ht with rfl | ht
        · rfl
        · exact ho t ht
      · intro t ht
        rcases List.mem_cons.mp ht with rfl | ht
        · rfl
        · exact ho t (List.mem_filter.mp ht).1
    | reload k opts env =>
      have hn := (hm _ List.mem_cons_self).2 k opts env rfl
      cases ht : s.tunnels[k]? with
      | none =>
        have he : step s (.reload k opts env) = s := by simp only [step, ht]
        exact fin s he h hk ho
      | some t =>
        have he : step s (.reload k opts env) =
            register s t.1 opts env (setCfg s.tunnels k opts) (setCfg s.tunnels k opts) := by simp only [step, ht]
        have hp : t.1 = p := ho t (List.mem_of_getElem? ht)
        rw [hp] at he
        rw [he] at hf1
        obtain ⟨a, b, _⟩ := register_inv h p hn env _ _ hf1
        exact fin _ he a (b hk) (register_owners opts env ho (owners_setCfg _ _ _ ho) (owners_setCfg _ _ _ ho) p)
    | leave k =>
      obtain ⟨a, b⟩ := leave_inv h k
      refine fin _ rfl a (b p hk) ?_
      simp only [step]
      split
      · split
        · intro t ht; cases ht
        · intro t ht; exact ho t (List.mem_of_mem_eraseIdx ht)
      · exact ho

theorem inv_run {cfg : Nat → List Nat} : ∀ (es : List Ev) (s : St), Inv cfg s → Maps es → (run s es).failed = false →
    Inv cfg (run s es)
  | [], s, h, _, _ => h
  | e :: es, s, h, hm, hf => by
    have hf1 : (step s e).failed = false := by
      cases hx : (step s e).failed with
      | false => rfl
      | true =>
        have := failed_run hx es
        rw [show run s (e :: es) = run (step s e) es from rfl, this] at hf
        cases hf
    refine inv_run es (step s e) ?_ (fun x hx => hm x (List.mem_cons_of_mem _ hx)) hf
    cases e with
    | join q opts env => exact (register_inv h q ((hm _ List.mem_cons_self).1 q opts env rfl) env _ _ hf1).1
    | reload k opts env =>
      have hn := (hm _ List.mem_cons_self).2 k opts env rfl
      cases ht : s.tunnels[k]? with
      | none =>
        have he : step s (.reload k opts env) = s := by simp only [step, ht]
        rw [he]; exact h
      | some t =>
        have he : step s (.reload k opts env) =
            register s t.1 opts env (setCfg s.tunnels k opts) (setCfg s.tunnels k opts) := by simp only [step, ht]
        rw [he] at hf1 ⊢
        exact (register_inv h t.1 hn env _ _ hf1).1
    | leave k => exact (leave_inv h k).1

theorem inv_init (cfg : Nat → List Nat) : Inv cfg (init cfg) :=
  ⟨Ports.start_inv, fun _ _ => rfl, fun h => absurd rfl h⟩

/-- **C127, the part that holds.** As long as one program only uses the id and no registration failed to open a port: whenever
it has a tunnel, it has been told, for every service of the configuration that the server serves, the public port at which that
service is reached; through any joins, reloads, ends of tunnels and reconnections.

Missing: with two programs (a restart that overlaps) it is false, see `restarted_program_is_not_told`. -/
theorem program_knows_its_ports_partial (cfg : Nat → List Nat) (p : Nat) (es : List Ev) (hb : OnlyBy p es) (hm : Maps es)
    (hf : (run (init cfg) es).failed = false) (ht : (run (init cfg) es).tunnels ≠ []) :
    ∃ opts, (run (init cfg) es).last = some opts ∧
      ∀ o ∈ opts, ∃ port, (run (init cfg) es).told p o.1 = some port ∧
        Ports.OpenFor (run (init cfg) es).ports port (run (init cfg) es).obj o.1 := by
  obtain ⟨hi, hk⟩ := run_inv es (init cfg) (inv_init cfg) (fun opts ho => by cases ho) (fun t ht => by cases ht) hb hm hf
  cases hl : (run (init cfg) es).last with
  | none => exact absurd hl (hi.some_ ht)
  | some opts => exact ⟨opts, rfl, hk opts hl⟩

/-- **C127, the part that holds.** Whichever program it is: the one whose tunnel brings a configuration the server did not have
before is told the port of every service of it. -/
theorem registering_program_is_told (cfg : Nat → List Nat) (es : List Ev) (hm : Maps es)
    (q : Nat) (opts : Opts) (env : Nat → Ports.Env) (hn : (opts.map Prod.fst).Nodup)
    (hnew : (run (init cfg) es).last ≠ some opts) (hf : (step (run (init cfg) es) (.join q opts env)).failed = false) :
    ∀ o ∈ opts, ∃ port, (step (run (init cfg) es) (.join q opts env)).told q o.1 = some port ∧
      Ports.OpenFor (step (run (init cfg) es) (.join q opts env)).ports port
        (step (run (init cfg) es) (.join q opts env)).obj o.1 := by
  have hf0 : (run (init cfg) es).failed = false := by
    cases hx : (run (init cfg) es).failed with
    | false => rfl
    | true => rw [failed_step hx] at hf; cases hf
  have hi := inv_run es (init cfg) (inv_init cfg) hm hf0
  obtain ⟨a, _, c⟩ := register_inv hi q hn env _ _ hf
  have hk := c hnew
  refine hk opts ?_
  have hl : (step (run (init cfg) es) (.join q opts env)).last = some opts := by
    rcases register_cases (run (init cfg) es) q opts env _ _ (hi.alive _ (Nat.le_refl _)) with ⟨h1, _⟩ | ⟨ann, _, h1⟩ | h1
    · exact absurd h1 hnew
    · show (register _ _ _ _ _ _).last = _
      rw [h1]
    · have hf' : (register (run (init cfg) es) q opts env _ _).failed = false := hf
      rw [h1] at hf'; cases hf'
  exact hl

/-! ### Concrete histories -/

def grant : Nat → Ports.Env := fun _ => ⟨fun _ => true, [80, 81, 82]⟩

/-- Program 7: two tunnels, a reload that adds a service with a random port, the second tunnel follows, all leave, back again. -/
def life : List Ev :=
  [.join 7 [(0, ⟨80, false⟩)] grant, .join 7 [(0, ⟨80, false⟩)] grant, .reload 0 [(0, ⟨80, false⟩), (1, ⟨0, true⟩)] grant,
   .reload 1 [(0, ⟨80, false⟩), (1, ⟨0, true⟩)] grant, .leave 0, .leave 0, .join 7 [(0, ⟨82, false⟩)] grant]

example : OnlyBy 7 life ∧ Maps life ∧ (run (init (fun _ => [80, 81, 82])) life).failed = false ∧
    (run (init (fun _ => [80, 81, 82])) life).tunnels ≠ [] ∧ (run (init (fun _ => [80, 81, 82])) life).told 7 0 = some 82 := by
  refine ⟨?_, ?_, by decide, by decide, by decide⟩
  · intro e he q opts env h
    simp [life] at he
    rcases he with rfl | rfl | rfl | rfl | rfl | rfl | rfl <;> simp_all
  · intro e he
    simp [life] at he
    rcases he with rfl | rfl | rfl | rfl | rfl | rfl | rfl <;>
      refine ⟨fun q opts env h => ?_, fun q opts env h => ?_⟩ <;> cases h <;> simp

/-- **C127 is violated.** Program 0 has registered a service with a random port; program 1, the same client started anew with
the same configuration before the tunnels of the old one are gone, joins and is told nothing; the old program leaves. Program 1
serves port 81 and nobody can learn that from it. -/
theorem restarted_program_is_not_told :
    ∃ es, Maps es ∧ (run (init (fun _ => [81])) es).failed = false ∧
      (∃ o, (1, o) ∈ (run (init (fun _ => [81])) es).tunnels) ∧
      Ports.OpenFor (run (init (fun _ => [81])) es).ports 81 (run (init (fun _ => [81])) es).obj 0 ∧
      (∀ si, (run (init (fun _ => [81])) es).told 1 si = none) := by
  refine ⟨[.join 0 [(0, ⟨0, true⟩)] (fun _ => ⟨fun _ => true, [81]⟩), .join 1 [(0, ⟨0, true⟩)] (fun _ => ⟨fun _ => true, [81]⟩),
    .leave 1], ?_, by decide, ⟨[(0, ⟨0, true⟩)], by decide⟩, ⟨0, by decide⟩, fun si => rfl⟩
  intro e he
  simp at he
  rcases he with rfl | rfl | rfl <;>
    refine ⟨fun q opts env h => ?_, fun q opts env h => ?_⟩ <;> cases h <;> simp

end Verif.Server.Announce
