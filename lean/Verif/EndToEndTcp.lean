import Verif.EndToEnd
import Verif.Ports.Keep
import Verif.Server.Announce
set_option linter.unusedSimpArgs false
set_option linter.unusedVariables false
/-!
# C131: a visitor of a public TCP port reaches the service the port was announced for

As C123, for the services that are reached by a port of their own: the handshake (C01), the ports (C27, C28), the announcement
(C126), the tunnel taken (C26) and the frames (C10) put together.
-/
namespace Verif.EndToEnd
open Verif Verif.Bufio

/-- libcs/server/conn.go:633-781: what `parseOptions` read, as `processTCPOptions` (1103-1171) gets it. -/
def tcpOpts (reg : Handshake.Reg) : List (Nat × Ports.Opt) := reg.ports.map (fun x => (x.1, ⟨x.2.port, x.2.random⟩))

/-- libcs/server/client.go:436-457 (the function given to `acceptLoop` by `openSpecifiedTCPPort`), libcs/server/conn.go:175-197 `handleTCP` and
libcs/server/client.go:78-103 `process`: a connection that sends `src` was accepted on the socket `h`. Nothing has been read from it when
`process` begins. The service index is the one the socket was opened for. -/
def serveTCP (s : Ports.St) (order : Nat → List (Nat × Nat)) (i : Nat) (byRemote : Bool) (h : Nat) (src : Script) : Option Way :=
  match AMap.get s.socks h with
  | none => none
  | some (_, c, k) =>
    match Registry.getTunnel (order c) with
    | none => none
    | some t =>
      match Tunnel.serverProcess i k byRemote (Rd.new 4096 src) with
      | none => none
      | some (frs, _) => some ⟨c, t, frs⟩

/-- A connection on an open socket reaches the client and the service the socket was opened for. No byte of it is looked at. -/
theorem socket_reaches {s : Ports.St} {order : Nat → List (Nat × Nat)} {c k h port : Nat} {l : List Nat} {n : Nat} (hn : n < 65536)
    (hs : AMap.get s.socks h = some (port, c, k)) (hl : l ≠ []) (hord : ∀ t, t ∈ l ↔ ∃ m, (t, m) ∈ order c)
    (i : Nat) (byRemote : Bool) (src : Script) (hsrc : Tunnel.NoErr src) :
    Reaches (serveTCP s order i byRemote h src) c l order n i k (bytesOf src) byRemote := by
  have hone : order c ≠ [] := by
    obtain ⟨t, ht⟩ := List.exists_mem_of_ne_nil l hl
    obtain ⟨m, hm⟩ := (hord t).1 ht
    intro h; rw [h] at hm; simp at hm
  obtain ⟨t, m, t1, t2, t3⟩ := (Registry.least_loaded_tunnel (order c)).2 hone
  have hc : Cap (Rd.new 4096 src) := ⟨by simp [Rd.new], by simp [Rd.new]⟩
  obtain ⟨q, frs, s'', f1, f2, f3, f4⟩ := Tunnel.serverProcess_noErr i k byRemote (Rd.new 4096 src) hc rfl hsrc (Or.inl rfl)
  refine ⟨t, m, Tunnel.SFrame.open_ i k q :: frs ++ (if byRemote then [] else [.closeTask i]), ?_,
    (hord t).2 ⟨m, t2⟩, t2, t3, ?_⟩
  · unfold serveTCP
    rw [hs]
    simp only
    rw [t1]
    simp only
    rw [f1]
  · intro hh hv hclose hmine hend hok tail
    have := (Tunnel.public_bytes_reach_the_service n hn i k byRemote (Rd.new 4096 src) s'' rfl hc.2 (Or.inl rfl) hsrc _ f1 rfl
      hh hv hclose hmine hend hok tail).2.2
    simpa [Rd.new] using this

theorem run_append (P : Nat → Nat) : ∀ (a b : List Ports.Ev) (s : Ports.St),
    Ports.run P s (a ++ b) = ((Ports.run P s a).1 ++ (Ports.run P (Ports.run P s a).2 b).1, (Ports.run P (Ports.run P s a).2 b).2) := by
  intro a
  induction a with
  | nil => intro b s; simp [Ports.run]
  | cons e r ih => intro b s; simp [Ports.run, ih]

/-- The history of the ports of a server: `evs`, then client `c` registers the TCP services of `reg` (in whatever order the map
gives them) and the server announces `ann`, then `evs'`, in which `c` neither registers again nor leaves. No reload failed to
reopen a port (C27), and users do not share ports unless they share the pool. -/
structure Announced (cfg : Nat → List Nat) (P : Nat → Nat) (reg : Handshake.Reg) (c : Nat) (evs evs' : List Ports.Ev)
    (opts : List (Nat × Ports.Opt)) (env : Nat → Ports.Env) (ann : List (Nat × Nat)) : Prop where
  disjoint : ∀ q q' p, p ∈ cfg q → p ∈ cfg q' → q = q'
  port16 : ∀ q p, p ∈ cfg q → p < 65536
  maps : ∀ e ∈ evs ++ Ports.Ev.process c opts env :: evs', Ports.EvOK e
  tame : ¬ Ports.ReopenFails (Ports.run P (Ports.start cfg) (evs ++ Ports.Ev.process c opts env :: evs')).1
  options : opts.Perm (tcpOpts reg)
  answered : (Ports.step P (Ports.run P (Ports.start cfg) evs).2 (.process c opts env)).1 = some (.ok ann)
  others : ∀ e ∈ evs', e.who ≠ c

theorem mem_tcpOpts {lim : Handshake.Limits} {id secret : Bytes} {svcs : List Handshake.Service} {reg : Handshake.Reg}
    (ho : Offered lim id secret svcs reg) (k : Nat) (sv : Handshake.Service) (hk : svcs[k]? = some sv)
    (hsv : sv.scheme = .tcp) : (k, (⟨sv.tcpPort, sv.tcpRandom⟩ : Ports.Opt)) ∈ tcpOpts reg := by
  obtain ⟨wire, tail, hwire, hread⟩ := ho.read
  obtain ⟨wire', reg', w1, w2, w3⟩ := Handshake.handshake_roundtrip lim id secret tail svcs ho.hid ho.hsecret ho.hne ho.hlen
    ho.hport ho.hdistinct ho.hfit ho.hmax ho.hmax16 ho.hhosts ho.htcps ho.hregex
  rw [hwire] at w1
  simp only [Option.some.injEq] at w1
  subst w1
  rw [hread] at w2
  simp only [Option.some.injEq, Except.ok.injEq, Prod.mk.injEq, true_and, and_true] at w2
  subst w2
  have hreg : reg.ports.get k = some ⟨sv.tcpPort, sv.tcpRandom⟩ := (w3.2 k _).2 ⟨sv, hk, by simp [Handshake.Service.tcp?, hsv]⟩
  exact List.mem_map.2 ⟨(k, ⟨sv.tcpPort, sv.tcpRandom⟩), AMap.mem_of_get _ hreg, rfl⟩

/-- And nothing but the TCP services of the configuration is opened. -/
theorem of_mem_ports {lim : Handshake.Limits} {id secret : Bytes} {svcs : List Handshake.Service} {reg : Handshake.Reg}
    (ho : Offered lim id secret svcs reg) (k : Nat) (t : Handshake.TcpOpt) (h : reg.ports.get k = some t) :
    ∃ sv, svcs[k]? = some sv ∧ sv.scheme = .tcp ∧ t = ⟨sv.tcpPort, sv.tcpRandom⟩ := by
  obtain ⟨wire, tail, hwire, hread⟩ := ho.read
  obtain ⟨wire', reg', w1, w2, w3⟩ := Handshake.handshake_roundtrip lim id secret tail svcs ho.hid ho.hsecret ho.hne ho.hlen
    ho.hport ho.hdistinct ho.hfit ho.hmax ho.hmax16 ho.hhosts ho.htcps ho.hregex
  rw [hwire] at w1
  simp only [Option.some.injEq] at w1
  subst w1
  rw [hread] at w2
  simp only [Option.some.injEq, Except.ok.injEq, Prod.mk.injEq, true_and, and_true] at w2
  subst w2
  obtain ⟨sv, a, b⟩ := (w3.2 k t).1 h
  refine ⟨sv, a, ?_⟩
  unfold Handshake.Service.tcp? at b
  split at b
  · rename_i hs; simp at b; exact ⟨hs, b.symm⟩
  · simp at b

/-- **C131 (partial: histories in which no reload failed to reopen a port).** A client is configured with the services `svcs` and
registered; the server announced ports. Then for every TCP service `k` of that configuration there is exactly one public port the
client is told, it is one the client's user may have, it is the port that was asked for if that port is fixed and the client had
not asked for a port for `k` before; the client understands the announcement; and whoever connects to that port afterwards, as long
as the client neither re-registers nor leaves and whatever other clients do, reaches service `k` of that client: the service gets exactly the
bytes the visitor sends - whatever they look like - and then the end of the connection. -/
theorem tcp_visitor_reaches_its_service_partial (lim : Handshake.Limits) (id secret : Bytes) (svcs : List Handshake.Service)
    (reg : Handshake.Reg) (ho : Offered lim id secret svcs reg) (cfg : Nat → List Nat) (P : Nat → Nat) (c : Nat)
    (evs evs' : List Ports.Ev) (opts : List (Nat × Ports.Opt)) (env : Nat → Ports.Env) (ann : List (Nat × Nat))
    (ha : Announced cfg P reg c evs evs' opts env ann) (l : List Nat) (order : Nat → List (Nat × Nat)) (hl : l ≠ [])
    (hord : ∀ t, t ∈ l ↔ ∃ m, (t, m) ∈ order c) (k : Nat) (sv : Handshake.Service) (hk : svcs[k]? = some sv)
    (hsv : sv.scheme = .tcp) :
    (∀ rest, Server.Announce.readN ann.length ((ann.map (fun a => (Server.Announce.Msg.opened a.1 a.2).enc)).flatten ++ rest) =
      some (ann.map (fun a => .msg (.opened a.1 a.2)), rest)) ∧
    ∃ port, (k, port) ∈ ann ∧ (∀ port', (k, port') ∈ ann → port' = port) ∧ port ∈ cfg (P c) ∧
      (sv.tcpRandom = false → ¬ Ports.Requested evs c k → port = sv.tcpPort) ∧
      let s := (Ports.run P (Ports.start cfg) (evs ++ .process c opts env :: evs')).2
      (∃ h, AMap.get s.socks h = some (port, c, k)) ∧
      ∀ h c' k', AMap.get s.socks h = some (port, c', k') → ∀ (i : Nat) (byRemote : Bool) (src : Script), Tunnel.NoErr src →
        Reaches (serveTCP s order i byRemote h src) c l order svcs.length i k (bytesOf src) byRemote := by
  have hnsvc : svcs.length < 65536 := by have := ho.hmax; have := ho.hmax16; omega
  have hrun := run_append P evs (.process c opts env :: evs') (Ports.start cfg)
  have ht := ha.tame
  rw [hrun] at ht
  have ht1 : ¬ Ports.ReopenFails (Ports.run P (Ports.start cfg) evs).1 := by
    rintro ⟨si, h⟩
    exact ht ⟨si, List.mem_append_left _ h⟩
  have hok1 : ∀ e ∈ evs, Ports.EvOK e := fun e he => ha.maps e (by simp [he])
  have hn : (AMap.keys opts).Nodup := ha.maps (.process c opts env) (by simp)
  obtain ⟨k1, k2⟩ := Ports.requested_ports_opened_partial cfg P evs c opts env ann hok1 hn ht1 ha.answered
  have hann : (ann.map Prod.fst).Nodup := by rw [k1]; exact hn
  have h16 : ∀ a ∈ ann, a.1 < 65536 ∧ a.2 < 65536 := by
    intro a haa
    have h1 : a.1 ∈ AMap.keys opts := by rw [← k1]; exact List.mem_map_of_mem haa
    obtain ⟨o, ho1, ho2⟩ := List.mem_map.1 h1
    obtain ⟨p, p1, p2, _⟩ := k2 o ho1
    have hp : a.2 = p := by
      rw [ho2] at p1
      have e1 := AMap.get_of_mem (m := ann) hann (k := a.1) (v := a.2) haa
      have e2 := AMap.get_of_mem (m := ann) hann p1
      rw [e1] at e2
      exact Option.some.inj e2
    constructor
    · have h2 : o ∈ tcpOpts reg := ha.options.mem_iff.1 ho1
      obtain ⟨x, x1, x2⟩ := List.mem_map.1 h2
      have : AMap.get reg.ports x.1 ≠ none := by
        intro h; exact ((AMap.get_eq_none_iff _ _).1 h) (List.mem_map_of_mem x1)
      obtain ⟨t, ht⟩ := Option.ne_none_iff_exists'.1 this
      obtain ⟨sv', q1, _⟩ := of_mem_ports ho x.1 t ht
      obtain ⟨q2, _⟩ := List.getElem?_eq_some_iff.1 q1
      have : a.1 = x.1 := by rw [← ho2, ← x2]
      omega
    · rw [hp]
      have := Ports.open_ports_are_allowed cfg P (evs ++ [.process c opts env]) p c o.1 (by
        rw [run_append]
        simpa [Ports.run] using p2)
      exact ha.port16 _ _ this
  refine ⟨?_, ?_⟩
  · intro rest
    have := Server.Announce.messages_understood (ann.map (fun a => .opened a.1 a.2)) (by
      intro m hm
      obtain ⟨a, a1, rfl⟩ := List.mem_map.1 hm
      exact h16 a a1) rest
    simpa [List.map_map, Function.comp_def] using this
  · have ho1 := ha.options.mem_iff.2 (mem_tcpOpts ho k sv hk hsv)
    obtain ⟨port, p1, p2, p3, p4⟩ := k2 _ ho1
    refine ⟨port, p1, ?_, ?_, ?_, ?_⟩
    · intro port' h'
      have e1 := AMap.get_of_mem (m := ann) hann h'
      have e2 := AMap.get_of_mem (m := ann) hann p1
      rw [e1] at e2
      exact Option.some.inj e2
    · exact Ports.open_ports_are_allowed cfg P (evs ++ [.process c opts env]) port c k (by
        rw [run_append]
        simpa [Ports.run] using p2)
    · intro h1 h2
      exact p3 h2 h1
    · have hkeep : ∃ h, AMap.get (Ports.run P (Ports.start cfg) (evs ++ .process c opts env :: evs')).2.socks h = some (port, c, k) := by
        obtain ⟨h, hh⟩ := p2
        refine ⟨h, ?_⟩
        have e1 : evs ++ Ports.Ev.process c opts env :: evs' = (evs ++ [.process c opts env]) ++ evs' := by simp
        have := Ports.others_keep_my_port cfg P (evs ++ [.process c opts env]) evs' c ha.others h port k (by
          rw [run_append]
          simpa [Ports.run] using hh)
        rw [e1, run_append]
        exact this
      refine ⟨hkeep, ?_⟩
      intro h c' k' hh i byRemote src hsrc
      obtain ⟨h0, hh0⟩ := hkeep
      have hd := (Ports.port_accounting_partial cfg P _ ha.disjoint ha.maps ha.tame).1 h h0 port c' k' c k hh hh0
      subst hd
      rw [hh0] at hh
      simp only [Option.some.injEq, Prod.mk.injEq, true_and] at hh
      obtain ⟨rfl, rfl⟩ := hh
      exact socket_reaches hnsvc hh0 hl hord i byRemote src hsrc

/-! ### Witnesses -/

def exEnv : Nat → Ports.Env := fun _ => ⟨fun _ => true, [8100, 8101]⟩

/-- Another client takes 8100; ours registers and gets 8101 for its service 1 (8022 is not in its pool); the other one reloads and
leaves. -/
def exBefore : List Ports.Ev := [.process 9 [(0, ⟨8100, false⟩)] exEnv]
def exAfter : List Ports.Ev := [.process 9 [(0, ⟨8100, false⟩), (1, ⟨0, true⟩)] exEnv, .leave 9, .process 10 [(0, ⟨8100, false⟩)] exEnv]
def exPool : Nat → List Nat := fun q => if q = 0 then [8100, 8101] else []

theorem ex_announced : Announced exPool (fun _ => 0) exReg 1 exBefore exAfter [(1, ⟨8022, true⟩)] exEnv [(1, 8101)] where
  disjoint := by
    intro q q' p h h'
    unfold exPool at h h'
    split at h <;> split at h' <;> simp_all
  port16 := by
    intro q p h
    unfold exPool at h
    split at h
    · simp at h; omega
    · simp at h
  maps := by
    intro e he
    simp [exBefore, exAfter] at he
    rcases he with rfl | rfl | rfl | rfl | rfl <;> simp [Ports.EvOK, AMap.keys]
  tame := by
    rintro ⟨si, h⟩
    have : (Ports.run (fun _ => 0) (Ports.start exPool) (exBefore ++ .process 1 [(1, ⟨8022, true⟩)] exEnv :: exAfter)).1 =
      [some (.ok [(0, 8100)]), some (.ok [(1, 8101)]), some (.failed 1 false), none, some (.ok [(0, 8100)])] := by decide +kernel
    rw [this] at h
    simp at h
  options := by decide +kernel
  answered := by decide +kernel
  others := by
    intro e he
    simp [exAfter] at he
    rcases he with rfl | rfl | rfl <;> simp [Ports.Ev.who]

/-- All hypotheses together. -/
example := tcp_visitor_reaches_its_service_partial exLim (ascii "abc") (ascii "pw") exSvcs exReg ex_offered exPool (fun _ => 0) 1
  exBefore exAfter _ exEnv _ ex_announced [1, 2] exOrder (by decide) ex_order 1 _ rfl rfl

/-- The bytes a peer-to-peer visitor begins with at the main port are ordinary bytes here. -/
example : serveTCP (Ports.run (fun _ => 0) (Ports.start exPool) (exBefore ++ .process 1 [(1, ⟨8022, true⟩)] exEnv :: exAfter)).2 exOrder 5 false 1
    [(ascii "XP", none), (ascii "SSH-2.0", none)] =
    some ⟨1, 1, [.open_ 5 1 [], .data 5 (ascii "XP"), .data 5 (ascii "SSH-2.0"), .closeTask 5]⟩ := by decide +kernel

end Verif.EndToEnd
