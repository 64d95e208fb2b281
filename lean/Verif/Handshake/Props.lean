import Verif.Handshake.Gen
/-!
# Property theorems: tunnel handshake (C01, C02, C03, C47)
-/
namespace Verif.Handshake
open Verif

/-- **C01.** Every handshake a client sends is understood by the server: the server recovers id and
secret, registers exactly the services declared (each under its own index), and leaves the bytes that
follow the handshake in the stream untouched.

Hypotheses: what the client's own configuration check (`parseServices`) and the handshake buffer
guarantee (prefix lengths, 16-bit ports, distinct prefixes, image fits the 4096-byte buffer) and that
the server's limits allow this many services. -/
theorem handshake_roundtrip (lim : Limits) (id secret rest : Bytes) (svcs : List Service)
    (hid : id.length ≤ 200) (hsecret : secret.length ≤ 200) (hne : svcs ≠ [])
    (hlen : ∀ s ∈ svcs, s.hostPrefix.length ≤ 200) (hport : ∀ s ∈ svcs, s.tcpPort < 65536)
    (hdistinct : svcs.Pairwise (fun s s' => s.isHost → s'.isHost → s.hostPrefix ≠ s'.hostPrefix))
    (hfit : handshakeSize id secret svcs ≤ 4096)
    (hmax : 2 * svcs.length - 1 ≤ lim.maxOptions) (hmax16 : lim.maxOptions < 65535)
    (hhosts : lim.hostNumber = 0 ∨ svcs.countP Service.isHost ≤ lim.hostNumber)
    (htcps : lim.tcpNumber = 0 ∨ svcs.countP (fun s => !s.isHost) ≤ lim.tcpNumber)
    (hregex : ∀ s ∈ svcs, s.isHost → s.hostPrefix ≠ id →
      lim.regex = [] ∨ ∃ r ∈ lim.regex, r s.hostPrefix = true) :
    ∃ wire reg, clientInit id secret svcs = some wire ∧
      serverHandshake lim (wire ++ rest) = some (.ok ((id, secret, reg), rest)) ∧
      reg.Describes lim.withID id svcs := by
  have hinit := clientInit_fit hfit
  have hv : ∀ o ∈ clientOpts id svcs, Opt.Valid o := by
    intro o ho
    rcases clientOpts_mem ho with rfl | ⟨s, hs, rfl⟩
    · trivial
    · exact toOpt_valid (by have := hlen s hs; omega) (hport s hs)
  have hH : (clientOpts id svcs).countP (fun o => (o.host? lim.withID id).isSome)
      = svcs.countP Service.isHost := by
    rw [clientOpts_countP _ _ _ (by simp [Opt.host?])]
    congr 1; funext s
    rw [toOpt_host?]; unfold Service.host? Service.isHost; cases s.scheme <;> simp
  have hT : (clientOpts id svcs).countP (fun o => (o.tcp?).isSome)
      = svcs.countP (fun s => !s.isHost) := by
    rw [clientOpts_countP _ _ _ (by simp [Opt.tcp?])]
    congr 1; funext s
    rw [toOpt_tcp?]; unfold Service.tcp? Service.isHost; cases s.scheme <;> simp
  obtain ⟨st, hst⟩ := applyOpts_ok (lim := lim) (id := id) (by omega) (clientOpts id svcs)
    (st := .init) (by simp [PState.init, clientOpts_length]; omega)
    (by rw [hH]; simpa [PState.init] using hhosts)
    (by rw [hT]; simpa [PState.init] using htcps)
    (by
      intro tls p hm
      rcases clientOpts_mem hm with h | ⟨s, hs, hso⟩
      · simp at h
      · have : s.isHost ∧ s.hostPrefix ≠ id ∧ s.hostPrefix = p := by
          unfold Service.toOpt at hso
          unfold Service.isHost
          by_cases he : s.hostPrefix = id <;> cases hsch : s.scheme <;> simp [hsch, he] at hso ⊢
          · exact hso.2.symm
          · exact hso.2.symm
        obtain ⟨h1, h2, rfl⟩ := this
        exact hregex s hs h1 h2)
  have hinv := inv_steps hmax16 _ (inv_init lim id) hst
  simp only [List.nil_append] at hinv
  have hloop := parseLoop_complete (rest := rest) (clientOpts id svcs) hv
    (st := .init) (clientOpts_complete id svcs hne) hst
    ((encOpts (clientOpts id svcs) ++ rest).length + 1) (by simp; omega)
  refine ⟨_, ⟨st.ids, st.ports⟩, hinit, ?_, ?_⟩
  · simp only [List.cons_append, serverHandshake, and_self, if_true, wireImage, List.append_assoc]
    rw [parseIdSecret_wire (by omega) (by omega)]
    simp only [parseOptions, hloop]
  · obtain ⟨hd1, hd2⟩ := hinv.desc
    simp only [clientOpts_services, List.getElem?_map, Option.map_eq_some_iff] at hd1 hd2
    constructor
    · intro p h
      rw [hd1]
      constructor
      · rintro ⟨⟨o, ⟨s, hs, rfl⟩, ho⟩, _⟩
        exact ⟨s, hs, by rw [← toOpt_host?]; exact ho⟩
      · rintro ⟨s, hs, ho⟩
        refine ⟨⟨_, ⟨s, hs, rfl⟩, by rw [toOpt_host?]; exact ho⟩, ?_⟩
        rintro j o tls hj ⟨s', hs', rfl⟩ hcontra
        rw [toOpt_host?] at hcontra
        obtain ⟨h1, h2, h3⟩ := host?_inj ho hcontra
        obtain ⟨hi', he'⟩ := List.getElem?_eq_some_iff.mp hs
        obtain ⟨hj', hje'⟩ := List.getElem?_eq_some_iff.mp hs'
        have := List.pairwise_iff_getElem.mp hdistinct _ _ hi' hj' hj
        rw [he', hje'] at this
        exact this h1 h2 h3
    · intro i t
      rw [hd2]
      constructor
      · rintro ⟨o, ⟨s, hs, rfl⟩, ho⟩
        exact ⟨s, hs, by rw [← toOpt_tcp? id]; exact ho⟩
      · rintro ⟨s, hs, ho⟩
        exact ⟨_, ⟨s, hs, rfl⟩, by rw [toOpt_tcp?]; exact ho⟩

/-- Non-vacuity of C01: an HTTP service under the id, a TCP service and an HTTPS service, under a
server with every limit switched on. -/
example :
    let id := ascii "abc"
    let svcs : List Service := [⟨.http, ascii "abc", 0, false⟩, ⟨.tcp, [], 8022, true⟩,
      ⟨.https, ascii "web", 0, false⟩]
    let lim : Limits := ⟨5, 2, 1, [fun p => p == ascii "web"], true⟩
    svcs ≠ [] ∧ (∀ s ∈ svcs, s.hostPrefix.length ≤ 200) ∧ (∀ s ∈ svcs, s.tcpPort < 65536) ∧
    svcs.Pairwise (fun s s' => s.isHost → s'.isHost → s.hostPrefix ≠ s'.hostPrefix) ∧
    handshakeSize id (ascii "pw") svcs ≤ 4096 ∧ 2 * svcs.length - 1 ≤ lim.maxOptions ∧
    lim.maxOptions < 65535 ∧ svcs.countP Service.isHost ≤ lim.hostNumber ∧
    svcs.countP (fun s => !s.isHost) ≤ lim.tcpNumber ∧
    (∀ s ∈ svcs, s.isHost → s.hostPrefix ≠ id → lim.regex.any (fun r => r s.hostPrefix) = true) := by
  decide

/-- **C02** (termination): whatever bytes arrive, option parsing ends. -/
theorem parseOptions_terminates (lim : Limits) (id inp : Bytes) :
    parseOptions lim id inp ≠ none := by
  have := parseLoop_fuel lim id (inp.length + 1) .init inp (by omega)
  unfold parseOptions
  split
  · contradiction
  · simp
  · simp

/-- **C02** (partial: `MaxHandShakeOptions < 65535`, see `options_unbounded_at_65535` for why; the
host limit is claimed below `2^32-1` and the TCP limit below `65535` for the same reason).
If option parsing succeeds on any byte stream whatsoever, then the bytes consumed are a complete
option list within the configured maximum, the registration describes exactly the services of that
list, stays within the host and TCP limits, and every explicit prefix matched some configured
expression. -/
theorem handshake_limits_partial (lim : Limits) (id inp rest : Bytes) (reg : Reg)
    (hmax : lim.maxOptions < 65535)
    (h : parseOptions lim id inp = some (.ok (reg, rest))) :
    ∃ os, inp = encOpts os ++ rest ∧ (∀ o ∈ os, Opt.Valid o) ∧ Complete 1 os ∧
      os.length ≤ lim.maxOptions ∧
      reg.DescribesOpts lim.withID id os ∧
      (lim.hostNumber ≠ 0 → lim.hostNumber < 4294967295 → reg.ids.length ≤ lim.hostNumber) ∧
      (lim.tcpNumber ≠ 0 → lim.tcpNumber < 65535 → reg.ports.length ≤ lim.tcpNumber) ∧
      (∀ tls p, Opt.host tls p ∈ os → lim.regex = [] ∨ ∃ r ∈ lim.regex, r p = true) ∧
      reg.ids.keys.Nodup ∧ reg.ports.keys.Nodup := by
  unfold parseOptions at h
  split at h
  · simp at h
  · simp at h
  · rename_i st rest' hl
    simp only [Option.some.injEq, Except.ok.injEq, Prod.mk.injEq] at h
    obtain ⟨rfl, rfl⟩ := h
    obtain ⟨os, hv, hc, rfl, ha⟩ := parseLoop_sound hl
    have hi := inv_steps hmax _ (inv_init lim id) ha
    simp only [List.nil_append] at hi
    exact ⟨os, rfl, hv, hc, hi.countLe, hi.desc, hi.hosts, hi.tcps, hi.regex, hi.idsNodup,
      hi.portsNodup⟩

/-- Non-vacuity of C02: a stream with a `next` marker, a prefix and a TCP option is accepted. -/
example : parseOptions ⟨3, 1, 1, [], false⟩ (ascii "abc")
      ([2, 3, 3] ++ ascii "web" ++ [1, 0, 31, 86] ++ ascii "rest") =
    some (.ok (⟨[(ascii "web", ⟨0, false⟩)], [(1, ⟨8022, false⟩)]⟩, ascii "rest")) := by
  decide

/-- And one more host than allowed is refused, at exactly the limit. -/
example : parseOptions ⟨3, 1, 1, [], false⟩ (ascii "abc") ([2, 3, 1, 97, 0]) =
    some (.error .hostNumberLimited) := by
  decide

theorem unbounded_aux (lim : Limits) (hm : lim.maxOptions = 65535) (hh : lim.hostNumber = 0)
    (id : Bytes) (n : Nat) (st : PState) (hl : st.left = 1) :
    ∃ st', applyOpts lim id st ((List.replicate n [Opt.next, .idHost false]).flatten
      ++ [.idHost false]) = .ok st' := by
  have hstep : ∀ (st : PState) (o : Opt), o = .next ∨ o = .idHost false →
      ∃ st', applyOpt lim id st o = .ok st' := by
    intro st o ho
    have : ¬ ((st.count + 1) % 65536 > lim.maxOptions) := by omega
    rcases ho with rfl | rfl
    · exact ⟨_, by unfold applyOpt; rw [if_neg this]⟩
    · exact ⟨_, by unfold applyOpt; rw [if_neg this]; simp only [hh, ne_eq, not_true_eq_false, false_and, if_false]; rfl⟩
  have : ∀ (os : List Opt) (st : PState), (∀ o ∈ os, o = .next ∨ o = .idHost false) →
      ∃ st', applyOpts lim id st os = .ok st' := by
    intro os
    induction os with
    | nil => intro st _; exact ⟨st, rfl⟩
    | cons o os ih =>
      intro st ho
      obtain ⟨st1, h1⟩ := hstep st o (ho o (by simp))
      obtain ⟨st2, h2⟩ := ih st1 (fun x hx => ho x (by simp [hx]))
      exact ⟨st2, by simp [applyOpts, h1, h2]⟩
  apply this
  intro o ho
  simp only [List.mem_append, List.mem_flatten, List.mem_replicate, List.mem_singleton] at ho
  rcases ho with ⟨l, ⟨_, rfl⟩, ho⟩ | rfl
  · simpa using ho
  · exact .inr rfl

/-- **C02** (negative part): with `MaxHandShakeOptions = 65535` the uint16 comparison
`optionsCount+1 > 65535` can never be true, and a peer can make the server accept *any* number of
options: for every `n` there is an accepted handshake with `2n+1` options. -/
theorem options_unbounded_at_65535 (lim : Limits) (hm : lim.maxOptions = 65535)
    (hh : lim.hostNumber = 0) (id : Bytes) (n : Nat) :
    ∃ os reg, os.length = 2 * n + 1 ∧ Complete 1 os ∧
      parseOptions lim id (encOpts os) = some (.ok (reg, [])) := by
  refine ⟨(List.replicate n [Opt.next, .idHost false]).flatten ++ [.idHost false], ?_⟩
  obtain ⟨st, hst⟩ := unbounded_aux lim hm hh id n .init rfl
  have hc : Complete 1 ((List.replicate n [Opt.next, .idHost false]).flatten ++ [.idHost false]) := by
    clear hst
    induction n with
    | zero => exact .svc (by simp) .done
    | succ n ih =>
      simp only [List.replicate_succ, List.flatten_cons, List.cons_append, List.nil_append]
      exact .next (.svc (by simp) ih)
  have hv : ∀ o ∈ (List.replicate n [Opt.next, .idHost false]).flatten ++ [.idHost false],
      Opt.Valid o := by
    intro o ho
    simp only [List.mem_append, List.mem_flatten, List.mem_replicate, List.mem_singleton] at ho
    rcases ho with ⟨l, ⟨_, rfl⟩, ho⟩ | rfl
    · simp at ho; rcases ho with rfl | rfl <;> trivial
    · trivial
  have hl := parseLoop_complete (rest := []) _ hv (st := .init) hc hst
    ((encOpts ((List.replicate n [Opt.next, .idHost false]).flatten ++ [.idHost false])).length + 1)
    (by omega)
  refine ⟨⟨st.ids, st.ports⟩, ?_, hc, ?_⟩
  · simp; omega
  · simp only [List.append_nil] at hl
    simp only [parseOptions, hl]

/-- **C03** (the property is false of the code): no handshake is ever refused because of the length
of its id or secret — *every* id and secret of 0 to 255 bytes passes, in particular the empty id and
ids of more than 200 bytes. -/
theorem id_length_never_refused (id secret rest : Bytes) (h1 : id.length ≤ 255)
    (h2 : secret.length ≤ 255) :
    parseIdSecret (UInt8.ofNat id.length :: (id ++ UInt8.ofNat secret.length :: (secret ++ rest))) =
      .ok ((id, secret), rest) :=
  parseIdSecret_wire (by omega) (by omega)

/-- **C03** (negation, end to end): a handshake with an empty id and an empty secret, and one with a
255-byte id, are both parsed and registered. -/
theorem id_length_limit_violated :
    (∃ reg, serverHandshake ⟨600, 0, 0, [], false⟩ [0xF0, 0x01, 0, 0, 0] =
      some (.ok (([], [], reg), []))) ∧
    (∃ reg, serverHandshake ⟨600, 0, 0, [], false⟩
        ([0xF0, 0x01, 255] ++ List.replicate 255 97 ++ [1, 98, 0]) =
      some (.ok ((List.replicate 255 97, [98], reg), []))) := by
  constructor
  · exact ⟨⟨[([], ⟨0, false⟩)], []⟩, by decide⟩
  · exact ⟨⟨[(List.replicate 255 97, ⟨0, false⟩)], []⟩, by decide +kernel⟩

/-- **C03** (partial): what the parser does guarantee about lengths — at most 255 bytes, and the
bytes consumed are exactly the two length-prefixed strings. -/
theorem id_secret_parse_partial (inp id secret rest : Bytes)
    (h : parseIdSecret inp = .ok ((id, secret), rest)) :
    inp = UInt8.ofNat id.length :: (id ++ UInt8.ofNat secret.length :: (secret ++ rest)) ∧
      id.length ≤ 255 ∧ secret.length ≤ 255 := by
  unfold parseIdSecret at h
  cases inp with
  | nil => simp [readByte, bind, Except.bind] at h
  | cons l inp =>
    simp only [readByte, bind, Except.bind] at h
    rw [if_neg (by omega)] at h
    cases h1 : readN l.toNat inp with
    | error e => rw [h1] at h; simp at h
    | ok r =>
      obtain ⟨id', inp1⟩ := r
      obtain ⟨rfl, hl1⟩ := readN_ok h1
      rw [h1] at h
      simp only at h
      cases inp1 with
      | nil => simp at h
      | cons l2 inp1 =>
        simp only at h
        rw [if_neg (by omega)] at h
        cases h2 : readN l2.toNat inp1 with
        | error e => rw [h2] at h; simp at h
        | ok r =>
          obtain ⟨s', inp2⟩ := r
          obtain ⟨rfl, hl2⟩ := readN_ok h2
          rw [h2] at h
          simp only [Except.ok.injEq, Prod.mk.injEq] at h
          obtain ⟨⟨rfl, rfl⟩, rfl⟩ := h
          have := u8_lt l
          have := u8_lt l2
          refine ⟨?_, by omega, by omega⟩
          rw [hl1, hl2]; simp

/-- Non-vacuity of the partial C03. -/
example : parseIdSecret ([3, 97, 98, 99, 2, 120, 121] ++ [0]) = .ok (([97, 98, 99], [120, 121]), [0]) := by
  decide

/-- **C47** (the property is false of the code): a handshake too big for the 4096-byte buffer is not
always refused. Whenever the overflow lies within the last service's prefix, the client *silently
sends the first 4096 bytes*; the server is then left waiting for prefix bytes and will take them from
whatever the client sends next. -/
theorem oversized_handshake_truncated (id secret : Bytes) (svcs : List Service) (last : Service)
    (hlast : last.isHost) (hp : last.hostPrefix ≠ id)
    (hbig : 4096 < handshakeSize id secret (svcs ++ [last]))
    (hlast2 : handshakeSize id secret (svcs ++ [last]) ≤ 4096 + last.hostPrefix.length) :
    ∃ wire, clientInit id secret (svcs ++ [last]) = some wire ∧ wire.length = 4096 := by
  refine ⟨_, clientInit_trunc hlast hp hlast2, ?_⟩
  have : (0xF0 :: 0x01 :: wireImage id secret (svcs ++ [last])).length
      = handshakeSize id secret (svcs ++ [last]) := by
    simp only [wireImage, handshakeSize, List.length_cons, List.length_append,
      clientOpts_enc_length, List.map_append, List.sum_append]
    omega
  rw [List.length_take, this]; omega

/-- Non-vacuity of C47: 21 HTTP services with distinct 200-byte prefixes. -/
example :
    let svc (i : Nat) : Service := ⟨.http, List.replicate 200 (UInt8.ofNat i), 0, false⟩
    let svcs := (List.range 20).map svc
    (svc 20).isHost ∧ (svc 20).hostPrefix ≠ ascii "abc" ∧
    4096 < handshakeSize (ascii "abc") (ascii "pw") (svcs ++ [svc 20]) ∧
    handshakeSize (ascii "abc") (ascii "pw") (svcs ++ [svc 20]) ≤ 4096 + (svc 20).hostPrefix.length := by
  decide +kernel

/-- **C47** (partial): a handshake that fits is sent whole. -/
theorem fitting_handshake_whole_partial (id secret : Bytes) (svcs : List Service)
    (h : handshakeSize id secret svcs ≤ 4096) :
    ∃ wire, clientInit id secret svcs = some wire ∧ wire.length = handshakeSize id secret svcs := by
  refine ⟨_, clientInit_fit h, ?_⟩
  simp only [wireImage, handshakeSize, List.length_cons, List.length_append,
    clientOpts_enc_length]
  omega

/-- **C02/C03** (end to end): whatever bytes arrive, if the server accepts them as a tunnel handshake then
they start with the magic number and version 1, then carry the id and the secret preceded by their
lengths, then a complete sequence of options no longer than the configured maximum, and what is
registered is exactly what these options describe, within the configured numbers; nothing behind the
last option is consumed. -/
theorem handshake_sound_partial (lim : Limits) (inp rest id secret : Bytes) (reg : Reg)
    (hmax : lim.maxOptions < 65535)
    (h : serverHandshake lim inp = some (.ok ((id, secret, reg), rest))) :
    ∃ os, inp = 0xF0 :: 0x01 :: UInt8.ofNat id.length ::
        (id ++ UInt8.ofNat secret.length :: (secret ++ (encOpts os ++ rest))) ∧
      (∀ o ∈ os, Opt.Valid o) ∧ Complete 1 os ∧ os.length ≤ lim.maxOptions ∧
      reg.DescribesOpts lim.withID id os ∧
      (lim.hostNumber ≠ 0 → lim.hostNumber < 4294967295 → reg.ids.length ≤ lim.hostNumber) ∧
      (lim.tcpNumber ≠ 0 → lim.tcpNumber < 65535 → reg.ports.length ≤ lim.tcpNumber) := by
  unfold serverHandshake at h
  split at h
  · rename_i m v inp'
    split at h
    · rename_i hmv
      obtain ⟨rfl, rfl⟩ := hmv
      split at h
      · simp at h
      · rename_i id' secret' inp'' hid
        split at h
        · simp at h
        · simp at h
        · rename_i reg' rest' hp
          simp only [Option.some.injEq, Except.ok.injEq, Prod.mk.injEq] at h
          obtain ⟨⟨rfl, rfl, rfl⟩, rfl⟩ := h
          obtain ⟨e1, -, -⟩ := id_secret_parse_partial _ _ _ _ hid
          obtain ⟨os, e2, h1, h2, h3, h4, h5, h6, _⟩ := handshake_limits_partial _ _ _ _ _ hmax hp
          exact ⟨os, by rw [e1, e2], h1, h2, h3, h4, h5, h6⟩
    · simp at h
  · simp at h

/-- A first byte other than the magic number, or another version, is not a tunnel handshake. -/
theorem handshake_needs_magic (lim : Limits) (m v : UInt8) (inp : Bytes)
    (h : m ≠ 0xF0 ∨ v ≠ 0x01) : serverHandshake lim (m :: v :: inp) = none := by
  unfold serverHandshake
  dsimp only
  rw [if_neg]
  rintro ⟨h1, h2⟩
  cases h <;> contradiction

example : serverHandshake ⟨600, 0, 0, [], false⟩ [0xF0, 0x02, 1, 97, 1, 98, 0] = none :=
  handshake_needs_magic _ _ _ _ (by decide)

end Verif.Handshake
