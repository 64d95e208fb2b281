import Verif.Handshake.Props
import Verif.Registry.FirstJoin
import Verif.Registry.Limit
import Verif.Route.Trim
import Verif.Bufio.Lines
import Verif.Server.Dispatch
import Verif.Tunnel.Props
import Verif.Client.HostRewrite
set_option linter.unusedSimpArgs false
set_option linter.unusedVariables false
/-!
# C123: a visitor's request reaches the service configured for its host, whole

The parts of a request's way are modelled, and proved, apart: what the client sends and the server registers (C01), the
registry (C24), the kind of a connection (C115), its host (C05, C06), the tunnel taken (C26), the frames (C10). Here they
are put together: the client's configuration on one side, the bytes the service gets on the other.
-/
namespace Verif.EndToEnd
open Verif Verif.Bufio

/-! ## The way of a visitor's connection -/

/-- libcs/server/conn.go:313 `string(id)`: the registry of the model has strings as keys. -/
def name (b : Bytes) : String := String.ofList (b.map (fun c => Char.ofNat c.toNat))

/-- The registration `parseOptions` makes (libcs/server/conn.go:633-781), as the registry sees it. -/
def idsOf (reg : Handshake.Reg) : AMap String Registry.Opt :=
  reg.ids.map (fun x => (name x.1, ⟨x.2.serviceIndex, x.2.tls⟩))

/-- Where a connection ends up: client, tunnel, and what is written to that tunnel for it. -/
structure Way where
  client : Nat
  tunnel : Nat
  frames : List Tunnel.SFrame
deriving Repr, DecidableEq

/-- libcs/server/conn.go:312-325 and libcs/server/client.go:78-103 `process`, for the reader `s` of a visitor with host prefix `p`; `order`
gives the tunnels of a client in the order the map is ranged over, with their task counts; `i` is the task number;
`byRemote`: the client closes first. Simplified: found at the first attempt (waiting is C116). -/
def forward (S : Registry.Srv) (order : Nat → List (Nat × Nat)) (i : Nat) (byRemote tls : Bool) (p : Bytes) (s : Rd) :
    Option Way :=
  match S.reg.get (name p, tls) with
  | none => none
  | some (c, k) =>
    match Registry.getTunnel (order c) with
    | none => none
    | some t =>
      match Tunnel.serverProcess i k byRemote s with
      | none => none
      | some (frs, _) => some ⟨c, t, frs⟩

/-- libcs/server/conn.go:95-173 `handle` with `handleHTTP` (275-325) for a connection that sends `src`; `mux` is the configured
header. -/
def serve (mux : Bytes) (S : Registry.Srv) (order : Nat → List (Nat × Nat)) (i : Nat) (byRemote : Bool) (src : Script) : Option Way :=
  match Server.Dispatch.sort (Rd.new 4096 src) with
  | some (.visitor, s) =>
    match Route.httpID Route.trimSpace mux s with
    | some (some p, s) => forward S order i byRemote false p s
    | _ => none
  | _ => none

/-- libcs/server/conn.go:95-173 `handle` with `handleSNI` (230-273). -/
def serveTLS (S : Registry.Srv) (order : Nat → List (Nat × Nat)) (i : Nat) (byRemote : Bool) (src : Script) : Option Way :=
  match Server.Dispatch.sort (Rd.new 4096 src) with
  | some (.visitor, s) =>
    match Route.peekTLSHost s with
    | some (.name host, s) =>
      if host.length < 1 then none
      else
        match Route.parseIDFromHost host with
        | none => none
        | some p => if p.length < 1 then none else forward S order i byRemote true p s
    | _ => none
  | _ => none

/-! ## Names -/

theorem ofNat_toNat_inj {a b : UInt8} (h : Char.ofNat a.toNat = Char.ofNat b.toNat) : a = b := by
  have ha := a.toNat_lt
  have hb := b.toNat_lt
  have va : Nat.isValidChar a.toNat := Or.inl (by omega)
  have vb : Nat.isValidChar b.toNat := Or.inl (by omega)
  have ev : ∀ n, n < 256 → (Char.ofNat n).toNat = n := by decide +kernel
  have h2 := congrArg Char.toNat h
  rw [ev _ ha, ev _ hb] at h2
  exact UInt8.toNat_inj.1 h2

theorem name_inj {a b : Bytes} (h : name a = name b) : a = b := by
  unfold name at h
  have h2 := String.ofList_injective h
  exact (List.map_inj_right (fun _ _ h => ofNat_toNat_inj h)).1 h2

theorem idsOf_get (reg : Handshake.Reg) (p : Bytes) :
    (idsOf reg).get (name p) = (reg.ids.get p).map (fun h => ⟨h.serviceIndex, h.tls⟩) := by
  unfold idsOf
  generalize reg.ids = l
  induction l with
  | nil => rfl
  | cons x l ih =>
    obtain ⟨q, h⟩ := x
    simp only [List.map_cons, AMap.get]
    by_cases hq : q = p
    · subst hq; simp
    · have : name q ≠ name p := fun h => hq (name_inj h)
      simp only [if_neg hq, if_neg this]
      exact ih

/-! ## The reader stays good -/

/-- `s'` has pulled some more bytes into the window, nothing else. -/
structure Pulled (s s' : Rd) : Prop where
  cap : s'.cap = s.cap
  data : ∃ bs, s'.data = s.data ++ bs ∧ bytesOf s.src = bs ++ bytesOf s'.src
  inv : Cap s'

theorem Pulled.trans {a b c : Rd} (h1 : Pulled a b) (h2 : Pulled b c) : Pulled a c := by
  obtain ⟨b1, d1, s1⟩ := h1.data
  obtain ⟨b2, d2, s2⟩ := h2.data
  exact ⟨h2.cap.trans h1.cap, ⟨b1 ++ b2, by rw [d2, d1]; simp, by rw [s1, s2]; simp⟩, h2.inv⟩

theorem Pulled.stream {s s' : Rd} (h : Pulled s s') : s'.data ++ bytesOf s'.src = s.data ++ bytesOf s.src := by
  obtain ⟨b, d, e⟩ := h.data
  rw [d, e]; simp

theorem peekLoop_noErr (f n : Nat) : ∀ (s s' : Rd), Cap s → NoErr s → peekLoop f n s = some s' → NoErr s' := by
  induction f with
  | zero => intro s s' _ _ h; simp [peekLoop] at h
  | succ f ih =>
    intro s s' hc hn h
    unfold peekLoop at h
    split at h
    · rename_i hx
      cases hf : fill s with
      | none => rw [hf] at h; simp at h
      | some s1 =>
        rw [hf] at h
        obtain ⟨s2, bs, g1, g2⟩ := fill_spec s hx.2.1
        rw [hf] at g1
        simp only [Option.some.injEq] at g1
        subst g1
        exact ih s1 s' (g2.ext hc.1).inv (fill_noErr hx.2.1 hn hx.2.2 hf) h
    · simp at h; subst h; exact hn

theorem peek_noErr {n : Nat} {s s' : Rd} {x : Bytes × Option Err} (hc : Cap s) (hn : NoErr s) (h : peek n s = some (x, s')) :
    NoErr s' := by
  unfold peek at h
  cases hp : peekLoop (s.cap + 2) n { s with last := none } with
  | none => rw [hp] at h; simp at h
  | some s1 =>
    have h1 := peekLoop_noErr _ _ { s with last := none } s1 hc hn hp
    rw [hp] at h
    simp only at h
    split at h
    · simp at h; rw [← h.2]; exact h1
    · split at h
      · simp [readErr] at h; rw [← h.2]; exact ⟨h1.1, Or.inl rfl⟩
      · simp at h; rw [← h.2]; exact h1

theorem peek_ext {n : Nat} {s s' : Rd} {x : Bytes × Option Err} (hc : Cap s) (h : peek n s = some (x, s')) : Pulled s s' := by
  obtain ⟨bs, e, s1, g1, g2, _⟩ := peek_spec n s hc
  rw [h] at g1
  simp only [Option.some.injEq, Prod.mk.injEq] at g1
  rw [g1.2]; exact ⟨g2.cap, g2.data, g2.inv⟩

theorem peekHeaderLoop_good (trim : Bytes → Bytes) (target : Bytes) (f : Nat) : ∀ (s s' : Rd) (x : Except Route.HErr Bytes),
    Cap s → NoErr s → Route.peekHeaderLoop trim target f s = some (x, s') → NoErr s' ∧ Pulled s s' := by
  induction f with
  | zero => intro s s' x _ _ h; simp [Route.peekHeaderLoop] at h
  | succ f ih =>
    intro s s' x hc hn h
    simp only [Route.peekHeaderLoop] at h
    cases hp : peek s.data.length s with
    | none => rw [hp] at h; simp at h
    | some q =>
      obtain ⟨⟨hs, e⟩, s1⟩ := q
      have n1 := peek_noErr hc hn hp
      have x1 := peek_ext hc hp
      rw [hp] at h
      cases e with
      | some e => simp at h; rw [← h.2]; exact ⟨n1, x1⟩
      | none =>
        simp only at h
        split at h
        · simp at h; rw [← h.2]; exact ⟨n1, x1⟩
        · simp at h; rw [← h.2]; exact ⟨n1, x1⟩
        · simp at h; rw [← h.2]; exact ⟨n1, x1⟩
        · split at h
          · simp at h; rw [← h.2]; exact ⟨n1, x1⟩
          · cases hp2 : peek (s.data.length + 1) s1 with
            | none => rw [hp2] at h; simp at h
            | some q =>
              obtain ⟨⟨hs2, e2⟩, s2⟩ := q
              have n2 := peek_noErr x1.inv n1 hp2
              have x2 := x1.trans (peek_ext x1.inv hp2)
              rw [hp2] at h
              cases e2 with
              | some e => simp at h; rw [← h.2]; exact ⟨n2, x2⟩
              | none =>
                simp only at h
                obtain ⟨a, b⟩ := ih s2 s' x x2.inv n2 h
                exact ⟨a, x2.trans b⟩

theorem httpID_good (trim : Bytes → Bytes) (mux : Bytes) (s s' : Rd) (x : Option Bytes) (hc : Cap s) (hn : NoErr s)
    (h : Route.httpID trim mux s = some (x, s')) : NoErr s' ∧ Pulled s s' := by
  unfold Route.httpID at h
  split at h
  · unfold Route.peekHeader at h
    cases hp : Route.peekHeaderLoop trim Route.hostTarget (Route.maxHeader + 3) s with
    | none => rw [hp] at h; simp at h
    | some q =>
      obtain ⟨y, s1⟩ := q
      have := peekHeaderLoop_good trim _ _ s s1 y hc hn hp
      rw [hp] at h
      cases y with
      | error e => simp at h; rw [← h.2]; exact this
      | ok v =>
        simp only at h
        split at h
        · simp at h; rw [← h.2]; exact this
        · split at h
          · simp at h; rw [← h.2]; exact this
          · split at h <;> · simp at h; rw [← h.2]; exact this
  · unfold Route.peekHeader at h
    cases hp : Route.peekHeaderLoop trim (mux ++ [58]) (Route.maxHeader + 3) s with
    | none => rw [hp] at h; simp at h
    | some q =>
      obtain ⟨y, s1⟩ := q
      have := peekHeaderLoop_good trim _ _ s s1 y hc hn hp
      rw [hp] at h
      cases y with
      | error e => simp at h; rw [← h.2]; exact this
      | ok v =>
        simp only at h
        split at h <;> · simp at h; rw [← h.2]; exact this

/-- A visitor's connection reaches its handler with nothing lost and the reader good. -/
theorem sort_visitor (src : Script) (hcl : Clean src) (a b : UInt8) (u : Bytes) (hS : bytesOf src = a :: b :: u) (ha : a < 0x80) :
    ∃ s, Server.Dispatch.sort (Rd.new 4096 src) = some (.visitor, s) ∧ s.err = none ∧ Clean s.src ∧
      Pulled (Rd.new 4096 src) s ∧ ∃ v, s.data = a :: b :: v := by
  have hc : Cap (Rd.new 4096 src) := ⟨by simp [Rd.new], by simp [Rd.new]⟩
  obtain ⟨bs, s, h1, h2, h3⟩ := Route.peek_clean 2 (Rd.new 4096 src) hc hcl rfl (by simp [Rd.new])
    (by simp [Route.stream, Rd.new, hS])
  have h4 := peek_ext hc h1
  obtain ⟨bs', e', s', g1, g2, g3, g4, g5, g6⟩ := peek_spec 2 (Rd.new 4096 src) hc
  rw [h1] at g1
  simp only [Option.some.injEq, Prod.mk.injEq] at g1
  obtain ⟨⟨rfl, rfl⟩, rfl⟩ := g1
  obtain ⟨hl, _⟩ := g4.1 rfl
  obtain ⟨x, y, rfl⟩ := Server.Dispatch.two_eq hl
  have hdata : ∃ v, s.data = x :: y :: v := by
    have h3' : [x, y] = s.data.take 2 := g3
    match hd : s.data, h3' with
    | [], h => simp at h
    | [x], h => simp at h
    | x' :: y' :: tl, h => simp at h; exact ⟨tl, by rw [h.1, h.2]⟩
  obtain ⟨v, hv⟩ := hdata
  have hst := h4.stream
  have hnew : (Rd.new 4096 src).data ++ bytesOf (Rd.new 4096 src).src = bytesOf src := by simp [Rd.new]
  rw [hnew, hS, hv] at hst
  simp only [List.cons_append, List.cons.injEq] at hst
  obtain ⟨rfl, rfl, _⟩ := hst
  refine ⟨s, ?_, h3, h2, h4, v, hv⟩
  unfold Server.Dispatch.sort
  rw [h1]
  have hx : x ≠ 0xF0 := by rintro rfl; exact absurd ha (by decide)
  simp only [List.getElem?_cons_zero, Option.some.injEq, if_neg hx]

/-! ## Specification -/

/-- A client is configured with id, secret and services `svcs`, within the limits of the server's user (C01); it sent its
handshake, and `reg` is what the server read in it. -/
structure Offered (lim : Handshake.Limits) (id secret : Bytes) (svcs : List Handshake.Service) (reg : Handshake.Reg) : Prop where
  hid : id.length ≤ 200
  hsecret : secret.length ≤ 200
  hne : svcs ≠ []
  hlen : ∀ s ∈ svcs, s.hostPrefix.length ≤ 200
  hport : ∀ s ∈ svcs, s.tcpPort < 65536
  hdistinct : svcs.Pairwise (fun s s' => s.isHost → s'.isHost → s.hostPrefix ≠ s'.hostPrefix)
  hfit : Handshake.handshakeSize id secret svcs ≤ 4096
  hmax : 2 * svcs.length - 1 ≤ lim.maxOptions
  hmax16 : lim.maxOptions < 65535
  hhosts : lim.hostNumber = 0 ∨ svcs.countP Handshake.Service.isHost ≤ lim.hostNumber
  htcps : lim.tcpNumber = 0 ∨ svcs.countP (fun s => !s.isHost) ≤ lim.tcpNumber
  hregex : ∀ s ∈ svcs, s.isHost → s.hostPrefix ≠ id → lim.regex = [] ∨ ∃ r ∈ lim.regex, r s.hostPrefix = true
  read : ∃ wire tail, Handshake.clientInit id secret svcs = some wire ∧
    Handshake.serverHandshake lim (wire ++ tail) = some (.ok ((id, secret, reg), tail))

/-- Client `c` is connected through the tunnels `l`, and the host prefixes of its services `reg` lead to it, each to its service. -/
structure Routed (S : Registry.Srv) (c : Nat) (l : List Nat) (reg : Handshake.Reg) : Prop where
  live : ∃ cl, S.clis.get c = some cl ∧ cl.tunnels = some l
  some_tunnel : l ≠ []
  prefixes : ∀ p h, reg.ids.get p = some h → S.reg.get (name p, h.tls) = some (c, h.serviceIndex)

/-- `S` is a server at some time in its history (a history without the failures of C24: `Registry.Tame`), and client `c` is
connected through the tunnels `l` with the services `reg`. -/
def Connected (S : Registry.Srv) (c : Nat) (l : List Nat) (reg : Handshake.Reg) : Prop :=
  l ≠ [] ∧
  ∃ (cfg : Nat → Registry.Ids) (m : Registry.Mode) (tu : Registry.User) (us : AMap String Registry.User) (a : Bool)
    (es : List Registry.Ev), (∀ n, (cfg n).keys.Nodup) ∧ cfg 0 = [] ∧ Registry.TameRun cfg (Registry.start m tu us a) es ∧
    S = Registry.run (Registry.start m tu us a) es ∧
    ∃ cl, S.clis.get c = some cl ∧ cl.tunnels = some l ∧ cfg cl.last = idsOf reg

/-- `S` is a server after any history at all, whose last event is that the first tunnel `t` of a client - one that was let in with
the services `reg`, while no client was connected under its id - joined, and stayed. -/
def JustJoined (S : Registry.Srv) (t : Nat) (reg : Handshake.Reg) : Prop :=
  ∃ (m : Registry.Mode) (tu : Registry.User) (us : AMap String Registry.User) (a : Bool) (es : List Registry.Ev) (tcpOk : Bool)
    (tt tt' : Registry.Tun) (id : String) (u : Registry.User) (o : Registry.Options) (r : Bool),
    (∀ e ∈ es, Registry.EvOK e) ∧ S = Registry.step (Registry.run (Registry.start m tu us a) es) (.join t tcpOk) ∧
    (Registry.run (Registry.start m tu us a) es).tuns.get t = some tt ∧ tt.phase = .authed id u o r ∧
    (Registry.run (Registry.start m tu us a) es).id2cli.get id = none ∧ o.cs ≠ 0 ∧ o.ids = idsOf reg ∧
    S.tuns.get t = some tt' ∧ tt'.phase = .up

/-- The connection goes to a tunnel of client `c` with the fewest tasks; and if what is written to that tunnel for task `i` reaches
the client - among anything else, that is neither the end of the tunnel nor of this task - and the service takes it,
then service `k` of `n` services got exactly `bytes`, and then the end of the connection (unless it ended it itself). -/
def Reaches (w : Option Way) (c : Nat) (l : List Nat) (order : Nat → List (Nat × Nat)) (n i k : Nat) (bytes : Bytes) (byRemote : Bool) :
    Prop :=
  ∃ t m frs, w = some ⟨c, t, frs⟩ ∧ t ∈ l ∧ (t, m) ∈ order c ∧ (∀ t' m', (t', m') ∈ order c → m ≤ m') ∧
    ∀ (h : List (Tunnel.SFrame × Tunnel.Env)), (∀ e ∈ h, e.1.Valid n) → (∀ e ∈ h, e.1 ≠ .close) →
      (h.filter (fun e => e.1.isOf i)).map (·.1) = frs → (∀ e ∈ h, i ∉ e.2.ended) →
      (∀ e ∈ h, e.1.isOf i = true → e.2.accept = none ∧ e.2.dialOk = true) → ∀ tail : Bytes,
      Tunnel.view (Tunnel.runC n (h.map (·.2)) .init (Tunnel.encAll (h.map (·.1)) ++ tail)).st i =
        some ⟨k, bytes, !byRemote⟩

/-! ## The theorems -/

/-- **C123 (partial: histories without the failures of C24)** A connected client is routed, each of its services under its host prefix. -/
theorem connected_is_routed_partial {S : Registry.Srv} {c : Nat} {l : List Nat} {reg : Handshake.Reg} (h : Connected S c l reg) :
    Routed S c l reg := by
  obtain ⟨hne, cfg, m, tu, us, a, es, hcfg, h0, htame, rfl, cl, k1, k2, k3⟩ := h
  refine ⟨⟨cl, k1, k2⟩, hne, ?_⟩
  intro p h hp
  rw [Registry.registry_exact_partial cfg hcfg h0 m tu us a es htame (name p) h.tls c h.serviceIndex]
  refine ⟨cl, l, k1, k2, ?_⟩
  rw [k3, idsOf_get, hp]; rfl

/-- **C123** A client whose first tunnel has just joined is routed, whatever happened on the server before. -/
theorem just_joined_is_routed {S : Registry.Srv} {t : Nat} {reg : Handshake.Reg} (h : JustJoined S t reg) :
    ∃ c, Routed S c [t] reg := by
  obtain ⟨m, tu, us, a, es, tcpOk, tt, tt', id, u, o, r, hes, rfl, h1, h2, hnew, hz, hids, h3, h4⟩ := h
  obtain ⟨c, cl, c1, c2, c3⟩ := Registry.first_join_is_routed_exactly m tu us a es hes t tcpOk tt tt' id u o r h1 h2 hnew hz h3 h4
  refine ⟨c, ⟨cl, c1, c2⟩, by simp, ?_⟩
  intro p h hp
  exact c3 (name p) ⟨h.serviceIndex, h.tls⟩ (by rw [hids, idsOf_get, hp]; rfl)

/-- From the right host prefix and a good reader on. -/
theorem forward_reaches {lim : Handshake.Limits} {id secret : Bytes} {svcs : List Handshake.Service} {reg : Handshake.Reg}
    (ho : Offered lim id secret svcs reg) {S : Registry.Srv} {c : Nat} {l : List Nat} {order : Nat → List (Nat × Nat)}
    (hr : Routed S c l reg) (hord : ∀ t, t ∈ l ↔ ∃ n, (t, n) ∈ order c) {k : Nat} {sv : Handshake.Service} {p : Bytes} {tls : Bool} (hk : svcs[k]? = some sv)
    (hp : sv.host? lim.withID id = some (p, tls)) (i : Nat) (byRemote : Bool) (s : Rd) (hcap : s.cap = 4096) (hc : Cap s)
    (herr : s.err = none ∨ s.src = []) (hsn : Tunnel.NoErr s.src) (hxp : Tunnel.isXP s.data = false) :
    Reaches (forward S order i byRemote tls p s) c l order svcs.length i k (s.data ++ bytesOf s.src) byRemote := by
  obtain ⟨wire, tail, hwire, hread⟩ := ho.read
  obtain ⟨wire', reg', w1, w2, w3⟩ := Handshake.handshake_roundtrip lim id secret tail svcs ho.hid ho.hsecret ho.hne ho.hlen
    ho.hport ho.hdistinct ho.hfit ho.hmax ho.hmax16 ho.hhosts ho.htcps ho.hregex
  rw [hwire] at w1
  simp only [Option.some.injEq] at w1
  subst w1
  rw [hread] at w2
  simp only [Option.some.injEq, Except.ok.injEq, Prod.mk.injEq, true_and, and_true] at w2
  subst w2
  have hreg : reg.ids.get p = some ⟨k, tls⟩ := (w3.1 p ⟨k, tls⟩).2 ⟨sv, hk, hp⟩
  have hroute : S.reg.get (name p, tls) = some (c, k) := hr.prefixes p _ hreg
  have hone : order c ≠ [] := by
    obtain ⟨t, ht⟩ := List.exists_mem_of_ne_nil l hr.some_tunnel
    obtain ⟨n, hn⟩ := (hord t).1 ht
    intro h; rw [h] at hn; simp at hn
  obtain ⟨t, n, t1, t2, t3⟩ := (Registry.least_loaded_tunnel (order c)).2 hone
  obtain ⟨q, frs, s'', f1, f2, f3, f4⟩ := Tunnel.serverProcess_noErr i k byRemote s hc hcap hsn herr
  refine ⟨t, n, Tunnel.SFrame.open_ i k q :: frs ++ (if byRemote then [] else [.closeTask i]), ?_,
    (hord t).2 ⟨n, t2⟩, t2, t3, ?_⟩
  · unfold forward
    rw [hroute]
    simp only
    rw [t1]
    simp only
    rw [f1]
  · intro h hv hclose hmine hend hok tail
    have hnsvc : svcs.length < 65536 := by have := ho.hmax; have := ho.hmax16; omega
    exact (Tunnel.public_bytes_reach_the_service svcs.length hnsvc i k byRemote s s'' hcap hc.2 herr hsn _ f1 hxp
      h hv hclose hmine hend hok tail).2.2

/-- The first two bytes of the connection are still the first two. -/
theorem xp_of {s : Rd} {x y : UInt8} {v bs : Bytes} {d : Bytes} (hd : d = x :: y :: v ++ bs) (hxp : ¬ (x = 0x58 ∧ y = 0x50)) :
    Tunnel.isXP d = false := by
  rw [hd]
  simp only [Tunnel.isXP, List.cons_append, List.take_succ_cons, List.take_zero]
  rw [beq_eq_false_iff_ne]
  intro h
  simp only [List.cons.injEq, and_true] at h
  exact hxp h

/-- **C123** A visitor connects, and sends - in whatever
pieces - a request (of at least two bytes, the first ASCII, the two not `XP`) whose first `Host: ` line, within 2049 bytes, names
the host prefix of the HTTP service `k` of a client that is routed (`connected_is_routed_partial`,
`just_joined_is_routed`), under some domain. Then service `k` of that client's
configuration gets exactly the bytes the visitor sends, in order, and then the end of the connection. -/
theorem request_reaches_its_service (lim : Handshake.Limits) (id secret : Bytes) (svcs : List Handshake.Service)
    (reg : Handshake.Reg) (ho : Offered lim id secret svcs reg) (S : Registry.Srv) (c : Nat) (l : List Nat)
    (order : Nat → List (Nat × Nat)) (hrt : Routed S c l reg) (hord : ∀ t, t ∈ l ↔ ∃ n, (t, n) ∈ order c)
    (k : Nat) (sv : Handshake.Service) (p : Bytes) (hk : svcs[k]? = some sv) (hp : sv.host? lim.withID id = some (p, false))
    (hpne : p ≠ []) (hdot : (46 : UInt8) ∉ p)
    (src : Script) (hcl : Clean src) (x y : UInt8) (u : Bytes) (hS : bytesOf src = x :: y :: u) (hascii : x < 0x80)
    (hxp : ¬ (x = 0x58 ∧ y = 0x50)) (pre mid rest post : Bytes) (len : Nat)
    (hhost : Route.FirstHeader (ascii "Host: ") (bytesOf src) (pre ++ (p ++ 46 :: (mid ++ 46 :: rest)) ++ post) len)
    (hlen2 : len ≤ 2049) (hl : Route.WS pre) (hr : Route.WS post) (ht : Route.Tight (p ++ 46 :: (mid ++ 46 :: rest)))
    (hm : mid ≠ []) (hm' : (46 : UInt8) ∉ mid) (hsz : (p ++ 46 :: (mid ++ 46 :: rest)).length ≤ 512)
    (i : Nat) (byRemote : Bool) :
    Reaches (serve (ascii "Host") S order i byRemote src) c l order svcs.length i k (bytesOf src) byRemote := by
  obtain ⟨s, s1, s2, s3, s4, v, s5⟩ := sort_visitor src hcl x y u hS hascii
  have hst : s.data ++ bytesOf s.src = bytesOf src := by have := s4.stream; simpa [Rd.new] using this
  have hcap : s.cap = 4096 := s4.cap
  obtain ⟨s', g1, g2⟩ := Route.host_request_routed s (by omega) s4.inv.2 s3 s2 pre p mid rest post len
    (by rw [hst]; exact hhost) hlen2 hl hr ht hpne hdot hm hm' hsz
  obtain ⟨n1, n2⟩ := httpID_good _ _ s s' _ s4.inv ⟨s3, Or.inl s2⟩ g1
  obtain ⟨bs, b1, b2⟩ := n2.data
  have herr : s'.err = none ∨ s'.src = [] := n1.2.imp_right And.right
  have key := forward_reaches ho hrt hord hk hp i byRemote s' (n2.cap.trans hcap) n2.inv herr (fun q hq => (n1.1 q hq).2)
    (xp_of (s := s) (by rw [b1, s5]) hxp)
  rw [g2, hst] at key
  unfold serve
  rw [s1]
  simp only
  rw [g1]
  exact key

/-- **C123, on a server that routes by another header**: the first such line, without the white space around its value,
names the prefix. -/
theorem request_reaches_its_service_by_header (lim : Handshake.Limits) (id secret : Bytes) (svcs : List Handshake.Service)
    (reg : Handshake.Reg) (ho : Offered lim id secret svcs reg) (S : Registry.Srv) (c : Nat) (l : List Nat)
    (order : Nat → List (Nat × Nat)) (hrt : Routed S c l reg) (hord : ∀ t, t ∈ l ↔ ∃ n, (t, n) ∈ order c)
    (k : Nat) (sv : Handshake.Service) (p : Bytes) (hk : svcs[k]? = some sv) (hp : sv.host? lim.withID id = some (p, false))
    (hpne : p ≠ []) (mux : Bytes) (hmux : mux ≠ ascii "Host")
    (src : Script) (hcl : Clean src) (x y : UInt8) (u : Bytes) (hS : bytesOf src = x :: y :: u) (hascii : x < 0x80)
    (hxp : ¬ (x = 0x58 ∧ y = 0x50)) (pre post : Bytes) (len : Nat)
    (hhost : Route.FirstHeader (mux ++ ascii ":") (bytesOf src) (pre ++ p ++ post) len)
    (hlen2 : len ≤ 2049) (hl : Route.WS pre) (hr : Route.WS post) (ht : Route.Tight p) (hsz : p.length ≤ 512)
    (i : Nat) (byRemote : Bool) :
    Reaches (serve mux S order i byRemote src) c l order svcs.length i k (bytesOf src) byRemote := by
  obtain ⟨s, s1, s2, s3, s4, v, s5⟩ := sort_visitor src hcl x y u hS hascii
  have hst : s.data ++ bytesOf s.src = bytesOf src := by have := s4.stream; simpa [Rd.new] using this
  have hcap : s.cap = 4096 := s4.cap
  obtain ⟨s', g1, g2⟩ := Route.header_request_routed_partial mux hmux s (by omega) s4.inv.2 s3 s2 pre p post len
    (by rw [hst]; exact hhost) hlen2 hl hr ht hpne hsz
  obtain ⟨n1, n2⟩ := httpID_good _ _ s s' _ s4.inv ⟨s3, Or.inl s2⟩ g1
  obtain ⟨bs, b1, b2⟩ := n2.data
  have herr : s'.err = none ∨ s'.src = [] := n1.2.imp_right And.right
  have key := forward_reaches ho hrt hord hk hp i byRemote s' (n2.cap.trans hcap) n2.inv herr (fun q hq => (n1.1 q hq).2)
    (xp_of (s := s) (by rw [b1, s5]) hxp)
  rw [g2, hst] at key
  unfold serve
  rw [s1]
  simp only
  rw [g1]
  exact key

/-! ### TLS -/

/-- The first piece is buffered by the first peek. -/
theorem peek_first (n : Nat) (hb : Bytes) (rest : Script) (h0 : 0 < n) (hn : n ≤ hb.length) (hl : hb.length ≤ 4096) :
    peek n (Rd.new 4096 ((hb, none) :: rest)) = some ((hb.take n, none), ⟨4096, 0, hb, none, none, rest⟩) := by
  have hf : fill ⟨4096, 0, [], none, none, (hb, none) :: rest⟩ = some ⟨4096, 0, hb, none, none, rest⟩ := by
    simp only [fill]
    rw [if_neg (by simp)]
    congr 1
    unfold fillLoop
    simp only [srcRead]
    rw [if_pos (by simpa using hl)]
    simp only
    rw [if_pos (by omega)]
    rfl
  have hp : peekLoop ((Rd.new 4096 ((hb, none) :: rest)).cap + 2) n { Rd.new 4096 ((hb, none) :: rest) with last := none } =
      some ⟨4096, 0, hb, none, none, rest⟩ := by
    simp only [Rd.new]
    rw [peekLoop, if_pos (by simp; omega), hf]
    simp only
    rw [peekLoop, if_neg (by simp only; omega)]
  unfold peek
  rw [hp]
  simp only
  rw [if_neg (by omega), if_neg (by omega)]

theorem peek_again (n : Nat) (hb : Bytes) (rest : Script) (hn : n ≤ hb.length) (hl : hb.length ≤ 4096) :
    peek n ⟨4096, 0, hb, none, none, rest⟩ = some ((hb.take n, none), ⟨4096, 0, hb, none, none, rest⟩) := by
  unfold peek
  have hp : peekLoop ((4096 : Nat) + 2) n ⟨4096, 0, hb, none, none, rest⟩ = some ⟨4096, 0, hb, none, none, rest⟩ := by
    rw [peekLoop, if_neg (by simp only; omega)]
  simp only [hp]
  rw [if_neg (by omega), if_neg (by omega)]

/-- **C123 (partial: the ClientHello must arrive in one piece, C07), TLS.** A visitor connects to the TLS address and
sends a ClientHello whose server name is the host prefix of the HTTPS service `k` of a connected client under some domain. Then service
`k` gets exactly the bytes the visitor sends, from the ClientHello on: the connection is encrypted end to end. -/
theorem tls_connection_reaches_its_service_partial (lim : Handshake.Limits) (id secret : Bytes) (svcs : List Handshake.Service)
    (reg : Handshake.Reg) (ho : Offered lim id secret svcs reg) (S : Registry.Srv) (c : Nat) (l : List Nat)
    (order : Nat → List (Nat × Nat)) (hrt : Routed S c l reg) (hord : ∀ t, t ∈ l ↔ ∃ n, (t, n) ∈ order c)
    (k : Nat) (sv : Handshake.Service) (p : Bytes) (hk : svcs[k]? = some sv) (hp : sv.host? lim.withID id = some (p, true))
    (hpne : p ≠ []) (hdot : (46 : UInt8) ∉ p) (h : Route.Hello) (hw : h.WF) (hlen : h.bytes.length ≤ 4096)
    (mid rest : Bytes) (hname : h.name = p ++ 46 :: (mid ++ 46 :: rest)) (hm : mid ≠ []) (hm' : (46 : UInt8) ∉ mid)
    (src : Script) (hcl : Clean src) (i : Nat) (byRemote : Bool) :
    Reaches (serveTLS S order i byRemote ((h.bytes, none) :: src)) c l order svcs.length i k (h.bytes ++ bytesOf src) byRemote := by
  obtain ⟨y, v, hb⟩ : ∃ y v, h.bytes = 22 :: y :: v := by
    have h1 : h.recVersion.length = 2 := hw.recVersion
    obtain ⟨a, b, hab⟩ := Server.Dispatch.two_eq h1
    simp only [Route.Hello.bytes, hab, List.append_assoc, List.cons_append, List.nil_append, List.cons.injEq, true_and]
    exact ⟨a, _, rfl, rfl⟩
  have h2 : 2 ≤ h.bytes.length := by rw [hb]; simp
  have hs : Server.Dispatch.sort (Rd.new 4096 ((h.bytes, none) :: src)) = some (.visitor, ⟨4096, 0, h.bytes, none, none, src⟩) := by
    unfold Server.Dispatch.sort
    rw [peek_first 2 h.bytes src (by omega) h2 hlen]
    have h0 : (h.bytes.take 2)[0]? = some 22 := by rw [hb]; rfl
    simp only [h0, Option.some.injEq]
    rw [if_neg (by decide)]
  have ht : Route.peekTLSHost ⟨4096, 0, h.bytes, none, none, src⟩ = some (.name h.name, ⟨4096, 0, h.bytes, none, none, src⟩) := by
    unfold Route.peekTLSHost
    rw [peek_again 1 h.bytes src (by omega) hlen]
    simp only
    rw [peek_again h.bytes.length h.bytes src (Nat.le_refl _) hlen]
    simp only [List.take_length]
    rw [Route.parseHello_hello h hw]
  have hpos := List.length_pos_iff.2 hpne
  have key := forward_reaches ho hrt hord hk hp i byRemote ⟨4096, 0, h.bytes, none, none, src⟩ rfl ⟨by simp, by simpa using hlen⟩
    (Or.inl rfl) (fun q hq => (hcl q hq).2) (xp_of (s := Rd.new 4096 src) (x := 22) (y := y) (v := v) (bs := [])
      (by simpa using hb) (by rintro ⟨h, _⟩; exact absurd h (by decide)))
  unfold serveTLS
  rw [hs]
  simp only
  rw [ht]
  simp only
  rw [if_neg (by rw [hname]; simp), (Route.id_from_host h.name p).2 ⟨mid, rest, hname, hdot, hm, hm'⟩]
  simp only
  rw [if_neg (by omega)]
  exact key

/-! ### The host the service sees -/

/-- **C123 (partial), a service configured to see its own host name** (C30): the bytes of the connection, in whatever pieces they come out
of the tunnel, reach it with the value of the `Host:` line replaced - the visitor's prefix is not seen. -/
theorem request_seen_with_local_host_partial (host h : Bytes) (s : Client.HostRewrite.St)
    (hset : Client.HostRewrite.setHost host = some (h, s)) (src : Script) (before v after : Bytes)
    (hreq : bytesOf src = before ++ ascii "Host:" ++ v ++ [10] ++ after) (hs : Client.HostRewrite.LineStart before)
    (hn : Client.HostRewrite.NoHostLine before) (hv : (10 : UInt8) ∉ v) (pieces : List Bytes)
    (hp : pieces.flatten = bytesOf src) :
    (Client.HostRewrite.writes h s pieces).1 = before ++ ascii "Host: " ++ host ++ [13, 10] ++ after := by
  exact (Client.HostRewrite.host_rewritten_partial host before v after pieces hset (by rw [hp, hreq]; rfl) hs hn hv).1

/-! ### Witnesses -/

def exSvcs : List Handshake.Service :=
  [⟨.http, ascii "abc", 0, false⟩, ⟨.tcp, [], 8022, true⟩, ⟨.https, ascii "sec", 0, false⟩, ⟨.http, ascii "web", 0, false⟩]
def exLim : Handshake.Limits := ⟨600, 3, 1, [], false⟩
def exReg : Handshake.Reg := ⟨[(ascii "abc", ⟨0, false⟩), (ascii "sec", ⟨2, true⟩), (ascii "web", ⟨3, false⟩)], [(1, ⟨8022, true⟩)]⟩

theorem ex_offered : Offered exLim (ascii "abc") (ascii "pw") exSvcs exReg where
  hid := by decide
  hsecret := by decide
  hne := by decide
  hlen := by decide
  hport := by decide
  hdistinct := by decide
  hfit := by decide +kernel
  hmax := by decide
  hmax16 := by decide
  hhosts := by decide
  htcps := by decide
  hregex := fun _ _ _ _ => Or.inl rfl
  read := ⟨(Handshake.clientInit (ascii "abc") (ascii "pw") exSvcs).getD [], [], by decide +kernel, by decide +kernel⟩

def exCfg : Nat → Registry.Ids
  | 7 => idsOf exReg
  | 8 => [("other", ⟨0, false⟩)]
  | _ => []

def exUser : Registry.User := ⟨"", false, 10, true⟩

/-- Another client comes; ours comes with two tunnels. -/
def exHistory : List Registry.Ev :=
  [.accept 9, .auth 9 "y" "s" ⟨exCfg 8, 8, 0⟩ none, .join 9 true,
   .accept 1, .auth 1 "abc" "pw" ⟨exCfg 7, 7, 1⟩ none, .join 1 true, .accept 2, .auth 2 "abc" "pw" ⟨exCfg 7, 7, 1⟩ none, .join 2 true]

def exOrder : Nat → List (Nat × Nat) := fun c => if c = 1 then [(2, 3), (1, 1)] else []

theorem ex_connected :
    Connected (Registry.run (Registry.start .anyNoUsers exUser [] false) exHistory) 1 [1, 2] exReg := by
  refine ⟨by decide, exCfg, .anyNoUsers, exUser, [], false, exHistory, ?_, rfl, Registry.tameRunB_sound _ _ _ (by decide +kernel), rfl,
    ⟨"abc", some [1, 2], 10, true, 7, []⟩, by decide +kernel, rfl, rfl⟩
  intro n
  unfold exCfg
  split <;> decide +kernel

theorem ex_order (t : Nat) : t ∈ [1, 2] ↔ ∃ n, (t, n) ∈ exOrder 1 := by
  simp only [exOrder, if_true, List.mem_cons, List.not_mem_nil, or_false, Prod.mk.injEq]
  constructor
  · rintro (rfl | rfl)
    · exact ⟨1, Or.inr ⟨rfl, rfl⟩⟩
    · exact ⟨3, Or.inl ⟨rfl, rfl⟩⟩
  · rintro ⟨n, ⟨rfl, _⟩ | ⟨rfl, _⟩⟩
    · exact Or.inr rfl
    · exact Or.inl rfl

/-- And after its first tunnel had joined. -/
example : JustJoined (Registry.step (Registry.run (Registry.start .anyNoUsers exUser [] false) (exHistory.take 5)) (.join 1 true)) 1 exReg :=
  ⟨.anyNoUsers, exUser, [], false, exHistory.take 5, true, _, _, "abc", _, ⟨exCfg 7, 7, 1⟩, false, by
    intro e he
    simp only [exHistory, List.take_succ_cons, List.take_zero, List.mem_cons, List.not_mem_nil, or_false] at he
    rcases he with rfl | rfl | rfl | rfl | rfl <;> first | trivial | (show AMap.keys _ |>.Nodup; decide +kernel),
    rfl, rfl, rfl, by decide +kernel, by decide, rfl, rfl, rfl⟩

/-- The request, in pieces, the `Host` line split. -/
def exVisit : Script :=
  [(ascii "GET / HTTP/1.1\r\nHo", none), (ascii "st: web.x.", none), (ascii "org\r\n\r\nbody", none)]

theorem ex_host : Route.FirstHeader (ascii "Host: ") (bytesOf exVisit)
    ([] ++ (ascii "web" ++ 46 :: (ascii "x" ++ 46 :: ascii "org")) ++ [13]) 33 := by
  refine ⟨ascii "GET / HTTP/1.1\r\n", ascii "\r\nbody", ⟨by decide +kernel, by decide +kernel, Or.inr (by decide +kernel)⟩, ⟨?_, ?_⟩, by decide +kernel⟩
  · intro a l r h
    rcases Route.lineAt_snoc (pre := []) (cur := ascii "GET / HTTP/1.1\r") (by decide +kernel) (Or.inl rfl) h with ⟨rfl, rfl⟩ | ⟨r', h'⟩
    · decide +kernel
    · simp [Route.LineAt] at h'
  · decide +kernel

/-- All hypotheses of `request_reaches_its_service` together: the request for `web.x.org` reaches service 3. -/
example (i : Nat) (byRemote : Bool) :
    Reaches (serve (ascii "Host") (Registry.run (Registry.start .anyNoUsers exUser [] false) exHistory) exOrder i byRemote exVisit)
      1 [1, 2] exOrder 4 i 3 (ascii "GET / HTTP/1.1\r\nHost: web.x.org\r\n\r\nbody") byRemote :=
  request_reaches_its_service exLim (ascii "abc") (ascii "pw") exSvcs exReg ex_offered _ 1 [1, 2] exOrder (connected_is_routed_partial ex_connected) ex_order
    3 ⟨.http, ascii "web", 0, false⟩ (ascii "web") rfl (by decide +kernel) (by decide) (by decide) exVisit
    (by unfold Clean exVisit; decide +kernel) 71 69 ((bytesOf exVisit).drop 2) (by decide +kernel) (by decide) (by decide)
    [] (ascii "x") (ascii "org") [13] 33 ex_host (by decide) ⟨[], by simp, rfl⟩ ⟨[[13]], by decide, rfl⟩
    (Route.tight_of_ends (a := 119) (b := 103) (by decide +kernel) (by decide +kernel) (by decide) (by decide))
    (by decide) (by decide) (by decide +kernel) i byRemote

/-- And it is tunnel 1, which has fewer tasks, that gets it. -/
example : serve (ascii "Host") (Registry.run (Registry.start .anyNoUsers exUser [] false) exHistory) exOrder 5 false exVisit =
    some ⟨1, 1, [.open_ 5 3 (ascii "GET / HTTP/1.1\r\nHost: web.x.org\r\n\r\nbody"), .closeTask 5]⟩ := by decide +kernel

def exHello : Route.Hello := { Route.sampleHello with name := ascii "sec.x.org" }

example : Reaches (serveTLS (Registry.run (Registry.start .anyNoUsers exUser [] false) exHistory) exOrder 5 false
      [(exHello.bytes, none), (ascii "more", none)])
      1 [1, 2] exOrder 4 5 2 (exHello.bytes ++ bytesOf [(ascii "more", none)]) false :=
  tls_connection_reaches_its_service_partial exLim (ascii "abc") (ascii "pw") exSvcs exReg ex_offered _ 1 [1, 2] exOrder (connected_is_routed_partial ex_connected) ex_order
    2 ⟨.https, ascii "sec", 0, false⟩ (ascii "sec") rfl (by decide +kernel) (by decide) (by decide) exHello
    (by constructor <;> simp [exHello, Route.sampleHello, Route.Hello.exts, Route.Hello.sniBody, Route.Extn.bytes, be16, ascii])
    (by decide +kernel) (ascii "x") (ascii "org") rfl (by decide) (by decide) _ (by unfold Clean; decide +kernel) 5 false

end Verif.EndToEnd
