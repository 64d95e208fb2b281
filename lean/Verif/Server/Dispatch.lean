import Verif.Bufio.Props
set_option linter.unusedSimpArgs false
set_option linter.unusedVariables false
/-!
# C115, C116, C117: what the server does with a new connection
(libcs/server/conn.go:93-173 `handle`, 175-199 `handleTCP`, 201-228 `handleProbe`, 256-272 and 310-326 (the loops of
`handleSNI` and `handleHTTP`); libcs/server/client.go:78-97 `process`; libcs/conn/quicConn.go:100-151
`GetQuicProbesResults`)

Clients and visitors connect to the same addresses. A connection is a client's if it begins with the bytes F0 01, a
probe if it begins with F0 02, a visitor's otherwise. A visitor whose host is not registered waits for it.

Simplified: the host is found (C05-C07); the registry and the tunnels of a client are functions of the time
(milliseconds); time passes only in the waits of the code.
-/
namespace Verif.Server.Dispatch
open Verif Verif.Bufio

inductive Kind where
  | tunnel | probe | visitor
  /-- closed at once -/
  | dropped
deriving DecidableEq, Repr

/-- libcs/server/conn.go:119-172 `handle`: which handler a connection gets, and the reader it gets. (`none`: never, `sort_total`.) -/
def sort (s : Rd) : Option (Kind × Rd) :=
  match peek 2 s with
  | none => none
  | some ((_, some _), s) => some (.dropped, s)
  | some ((v, none), s) =>
    if v[0]? = some 0xF0 then
      if v[1]? = some 1 then
        match discard 2 s with
        | none => none
        | some ((_, none), s) => some (.tunnel, s)
        | some ((_, some _), s) => some (.dropped, s)
      else if v[1]? = some 2 then
        match discard 2 s with
        | none => none
        | some ((_, none), s) => some (.probe, s)
        | some ((_, some _), s) => some (.dropped, s)
      else some (.visitor, s)
    else some (.visitor, s)

/-! ## Waiting -/

/-- A host: who serves it. `Nat`s stand for clients, services and tunnels. -/
structure World where
  /-- `hostPrefix2Client`: client and service at a time -/
  reg : Nat → Option (Nat × Nat)
  /-- `getTunnel` of a client at a time -/
  tun : Nat → Nat → Option Nat

inductive Outcome where
  | served (at_ : Nat) (service : Nat) (tunnel : Nat)
  | notFound (at_ : Nat)
  | noTunnel (at_ : Nat)
deriving DecidableEq, Repr

/-- libcs/server/client.go:84-94: up to `n` times. -/
def getTunnel (tun : Nat → Option Nat) : Nat → Nat → Option (Nat × Nat) × Nat
  | 0, t => (none, t)
  | n + 1, t =>
    match tun t with
    | some x => (some (t, x), t)
    | none => getTunnel tun n (t + 100)

/-- libcs/server/client.go:78-97 `process` -/
def process (w : World) (client service t : Nat) : Outcome :=
  match getTunnel (w.tun client) 3 t with
  | (some (at_, x), _) => .served at_ service x
  | (none, t') => .noTunnel t'

/-- libcs/server/conn.go:256-272, 310-326: up to `n` times. -/
def lookup (w : World) : Nat → Nat → Outcome
  | 0, t => .notFound t
  | n + 1, t =>
    match w.reg t with
    | some (c, s) => process w c s t
    | none => lookup w n (t + 1000)

/-- libcs/server/conn.go:230-326 -/
def visit (w : World) (t0 : Nat) : Outcome := lookup w 3 t0

/-- libcs/server/conn.go:175-199 with libcs/server/client.go:447-457: a connection to a forwarded port; the client and the service are those of the port. -/
def visitTCP (w : World) (client service t0 : Nat) : Outcome := process w client service t0

/-! ## Probes -/

/-- libcs/server/conn.go:206-226: what the server sends back; `n`: probes left; `none` in the list: no datagram in time. -/
def echo : Nat → List (Option Bytes) → List Bytes
  | 0, _ => []
  | _, [] => []
  | _, none :: _ => []
  | n + 1, some d :: rest =>
    match d with
    | [] => [d]                          -- libcs/server/conn.go:222 `buf[0]` panics, after the datagram was sent back
    | no :: _ => if no = 9 then [d] else d :: echo n rest

/-- One probe as the client sees it: the delay of its answer in milliseconds, or none in time. -/
abbrev Probe := Option Nat

/-- quicConn.go:117-150 the loop for answers as `echo` gives them: number of answers and sum of delays, or an error. -/
def probeLoop : List Probe → Nat → Nat → Option (Nat × Nat)
  | [], k, sum => some (k, sum)
  | none :: _, _, _ => none
  | some d :: rest, k, sum => probeLoop rest (k + 1) (sum + d)

/-- quicConn.go:100-151: ten times the average delay, and ten times the loss. -/
def probes (l : List Probe) : Option (Nat × Nat) :=
  match probeLoop l 0 0 with
  | none => none
  | some (k, sum) => some (sum, 10 - k)

/-! ## Specification -/

/-- what follows on the reader -/
def rest (s : Rd) : Bytes := s.data ++ bytesOf s.src

/-- The kind of a connection, from its first bytes. -/
def kindOf : Bytes → Kind
  | 0xF0 :: 1 :: _ => .tunnel
  | 0xF0 :: 2 :: _ => .probe
  | _ :: _ :: _ => .visitor
  | _ => .dropped

/-- Full property C116: if within two seconds of the visitor's arrival the host is served again, and stays so for as long
as the visitor waits, the visitor is served. -/
def BackSoon (w : World) (t0 : Nat) : Prop :=
  (∃ T, T ≤ t0 + 2000 ∧ ∀ t, T ≤ t → t ≤ t0 + 3000 → ∃ c s, w.reg t = some (c, s) ∧ (w.tun c t).isSome) →
  ∃ at_ s x, visit w t0 = .served at_ s x

/-- Full property C117: the loss reported is the share of the probes without answer. -/
def LossMeasured (l : List Probe) : Prop :=
  ∃ sum, probes l = some (sum, (l.filter (· = none)).length)

/-! ## Proofs -/

theorem two_eq {v : Bytes} (h : v.length = 2) : ∃ a b, v = [a, b] := by
  match v, h with
  | [a, b], _ => exact ⟨a, b, rfl⟩

/-- **C115** The server never fails here, on any connection; a connection it passes on to a handler began with two bytes
that tell its kind; and the handler of a visitor sees every byte from the first on, those of the others all after the
two. -/
theorem sorted (cap : Nat) (hcap : 2 ≤ cap) (src : Script) :
    ∃ k s', sort (Rd.new cap src) = some (k, s') ∧
      (k = .dropped ∨ (k = kindOf (bytesOf src) ∧
        rest s' = (bytesOf src).drop (if k = .visitor then 0 else 2))) := by
  have hc : Cap (Rd.new cap src) := ⟨by simp [Rd.new]; omega, by simp [Rd.new]⟩
  obtain ⟨bs, e, s1, h1, h2, h3, h4, h5, h6⟩ := peek_spec 2 (Rd.new cap src) hc
  have hst : bytesOf src = rest s1 := by
    have := h2.stream
    simp [Rd.new] at this
    simpa [rest] using this.symm
  unfold sort
  rw [h1]
  cases e with
  | some e => exact ⟨.dropped, s1, rfl, Or.inl rfl⟩
  | none =>
    obtain ⟨hl, _⟩ := h4.mp rfl
    obtain ⟨a, b, rfl⟩ := two_eq hl
    have hdata : ∃ tl, s1.data = a :: b :: tl := by
      have h3' : [a, b] = s1.data.take 2 := h3
      match hd : s1.data, h3' with
      | [], h => simp at h
      | [x], h => simp at h
      | x :: y :: tl, h => simp at h; exact ⟨tl, by rw [h.1, h.2]⟩
    obtain ⟨tl, htl⟩ := hdata
    have hsrc : bytesOf src = a :: b :: (tl ++ bytesOf s1.src) := by rw [hst, rest, htl]; rfl
    obtain ⟨k, e, s2, cs, d1, d2, d3, d4, d5, d6⟩ := discard_spec 2 s1 h2.inv
    have hdr : e = none → rest s2 = (bytesOf src).drop 2 := by
      intro he
      have hk := d6.mp he
      have := d2.stream
      rw [hst]
      show _ = (s1.data ++ bytesOf s1.src).drop 2
      rw [this, ← hk, ← d4, List.drop_left]
      rfl
    simp only [List.getElem?_cons_zero, List.getElem?_cons_succ]
    by_cases ha : a = 0xF0
    · subst ha
      rw [if_pos rfl]
      by_cases hb : b = 1
      · subst hb
        rw [if_pos rfl, d1]
        cases e with
        | some e => exact ⟨.dropped, s2, rfl, Or.inl rfl⟩
        | none => exact ⟨.tunnel, s2, rfl, Or.inr ⟨by rw [hsrc]; rfl, by simpa using hdr rfl⟩⟩
      · rw [if_neg (by simpa using hb)]
        by_cases hb2 : b = 2
        · subst hb2
          rw [if_pos rfl, d1]
          cases e with
          | some e => exact ⟨.dropped, s2, rfl, Or.inl rfl⟩
          | none => exact ⟨.probe, s2, rfl, Or.inr ⟨by rw [hsrc]; rfl, by simpa using hdr rfl⟩⟩
        · rw [if_neg (by simpa using hb2)]
          refine ⟨.visitor, s1, rfl, Or.inr ⟨?_, by simpa using hst.symm⟩⟩
          rw [hsrc]
          unfold kindOf
          split
          · rename_i heq; simp at heq; exact absurd heq.1 hb
          · rename_i heq; simp at heq; exact absurd heq.1 hb2
          · rfl
          · rename_i h1 h2 h3; exact absurd rfl (h3 _ _ _)
    · rw [if_neg (by simpa using ha)]
      refine ⟨.visitor, s1, rfl, Or.inr ⟨?_, by simpa using hst.symm⟩⟩
      rw [hsrc]
      unfold kindOf
      split
      · rename_i heq; simp at heq; exact absurd heq.1 ha
      · rename_i heq; simp at heq; exact absurd heq.1 ha
      · rfl
      · rename_i h1 h2 h3; exact absurd rfl (h3 _ _ _)

/-- **C115** A connection that delivers two bytes (in whatever pieces) is never dropped. -/
theorem not_dropped (cap : Nat) (hcap : 2 ≤ cap) (src : Script) (hcl : Clean src)
    (hlen : 2 ≤ (bytesOf src).length) :
    ∃ s', sort (Rd.new cap src) = some (kindOf (bytesOf src), s') ∧
      rest s' = (bytesOf src).drop (if kindOf (bytesOf src) = .visitor then 0 else 2) := by
  obtain ⟨k, s', h1, h2⟩ := sorted cap hcap src
  have hk : k ≠ .dropped := by
    rintro rfl
    obtain ⟨s1, hp⟩ := peek_complete cap (by omega) src hcl 2 hcap hlen
    have hc : Cap (Rd.new cap src) := ⟨by simp [Rd.new]; omega, by simp [Rd.new]⟩
    obtain ⟨bs, e, s2, q1, q2, q3, q4, q5, q6⟩ := peek_spec 2 (Rd.new cap src) hc
    rw [hp] at q1
    obtain ⟨⟨rfl, rfl⟩, rfl⟩ : ((bytesOf src).take 2 = bs ∧ none = e) ∧ s1 = s2 := by
      have := Option.some.inj q1
      simp only [Prod.mk.injEq] at this
      exact this
    have hdl : 2 ≤ s1.data.length := by
      have := congrArg List.length q3
      simp at this
      omega
    have hdis : ∀ s, discard 2 s1 = some s → s.1.2 = none := by
      intro s hs
      unfold Bufio.discard at hs
      rw [if_neg (by omega)] at hs
      unfold discardLoop at hs
      have hne : ¬ s1.data.length = 0 := by omega
      simp only [hne, if_false] at hs
      rw [if_pos (by omega)] at hs
      cases hs
      rfl
    unfold sort at h1
    rw [hp] at h1
    simp only at h1
    split at h1
    · split at h1
      · split at h1
        · simp at h1
        · simp at h1
        · rename_i hd; have := hdis _ hd; simp at this
      · split at h1
        · split at h1
          · simp at h1
          · simp at h1
          · rename_i hd; have := hdis _ hd; simp at this
        · simp at h1
    · simp at h1
  rcases h2 with h2 | ⟨h2, h3⟩
  · exact absurd h2 hk
  · subst h2
    exact ⟨s', h1, h3⟩

/-- **C115** An HTTP request (its first byte is ASCII) and a TLS handshake (16 hex) are visitors'. -/
theorem visitors_are_visitors {a b : UInt8} {t : Bytes} (h : a < 0x80) : kindOf (a :: b :: t) = .visitor := by
  have : a ≠ 0xF0 := by rintro rfl; exact absurd h (by decide)
  unfold kindOf
  split
  · rename_i heq; simp at heq; exact absurd heq.1 this
  · rename_i heq; simp at heq; exact absurd heq.1 this
  · rfl
  · rename_i h1 h2 h3; exact absurd rfl (h3 _ _ _)

theorem getTunnel_cases (tun : Nat → Option Nat) (n t : Nat) :
    (∃ i x, i < n ∧ getTunnel tun n t = (some (t + 100 * i, x), t + 100 * i) ∧ tun (t + 100 * i) = some x ∧
      ∀ j < i, tun (t + 100 * j) = none) ∨
    (getTunnel tun n t = (none, t + 100 * n) ∧ ∀ j < n, tun (t + 100 * j) = none) := by
  induction n generalizing t with
  | zero => exact Or.inr ⟨rfl, by intro j hj; omega⟩
  | succ n ih =>
    unfold getTunnel
    cases h : tun t with
    | some x => exact Or.inl ⟨0, x, by omega, by simp, by simpa using h, by intro j hj; omega⟩
    | none =>
      simp only
      rcases ih (t + 100) with ⟨i, x, h1, h2, h3, h4⟩ | ⟨h1, h2⟩
      · refine Or.inl ⟨i + 1, x, by omega, ?_, ?_, ?_⟩
        · rw [h2]
          have e : t + 100 + 100 * i = t + 100 * (i + 1) := by omega
          rw [e]
        · rw [← h3]; congr 1; omega
        · intro j hj
          cases j with
          | zero => simpa using h
          | succ j => rw [← h4 j (by omega)]; congr 1; omega
      · refine Or.inr ⟨by rw [h1]; congr 1; omega, ?_⟩
        intro j hj
        cases j with
        | zero => simpa using h
        | succ j => rw [← h2 j (by omega)]; congr 1; omega

theorem process_cases (w : World) (c s t : Nat) :
    (∃ i x, i < 3 ∧ process w c s t = .served (t + 100 * i) s x ∧ w.tun c (t + 100 * i) = some x) ∨
    (process w c s t = .noTunnel (t + 300) ∧ ∀ j < 3, w.tun c (t + 100 * j) = none) := by
  unfold process
  rcases getTunnel_cases (w.tun c) 3 t with ⟨i, x, h1, h2, h3, _⟩ | ⟨h1, h2⟩
  · exact Or.inl ⟨i, x, h1, by rw [h2], h3⟩
  · exact Or.inr ⟨by rw [h1], h2⟩

theorem shift (t j : Nat) : t + 1000 * (j + 1) = t + 1000 + 1000 * j := by omega

theorem lookup_cases (w : World) (n t : Nat) :
    (∃ i c s, i < n ∧ w.reg (t + 1000 * i) = some (c, s) ∧ lookup w n t = process w c s (t + 1000 * i) ∧
      ∀ j < i, w.reg (t + 1000 * j) = none) ∨
    (lookup w n t = .notFound (t + 1000 * n) ∧ ∀ j < n, w.reg (t + 1000 * j) = none) := by
  induction n generalizing t with
  | zero => exact Or.inr ⟨rfl, by intro j hj; omega⟩
  | succ n ih =>
    unfold lookup
    cases h : w.reg t with
    | some p =>
      obtain ⟨c, s⟩ := p
      exact Or.inl ⟨0, c, s, by omega, by rw [Nat.mul_zero, Nat.add_zero]; exact h, by rw [Nat.mul_zero]; rfl, by intro j hj; omega⟩
    | none =>
      simp only
      rcases ih (t + 1000) with ⟨i, c, s, h1, h2, h3, h4⟩ | ⟨h1, h2⟩
      · have e : t + 1000 * (i + 1) = t + 1000 + 1000 * i := by omega
        refine Or.inl ⟨i + 1, c, s, by omega, by rw [e]; exact h2, by rw [e]; exact h3, ?_⟩
        intro j hj
        cases j with
        | zero => simpa using h
        | succ j =>
          have e := shift t j
          rw [e]; exact h4 j (by omega)
      · have e : t + 1000 + 1000 * n = t + 1000 * (n + 1) := by rw [Nat.mul_succ]; omega
        refine Or.inr ⟨by rw [h1, e], ?_⟩
        intro j hj
        cases j with
        | zero => simpa using h
        | succ j =>
          have e := shift t j
          rw [e]; exact h2 j (by omega)

/-- **C116** A visitor who is served gets a tunnel that the registered client of the host has at that time, and the service
that was registered. -/
theorem served_right {w : World} {t0 at_ s x : Nat} (h : visit w t0 = .served at_ s x) :
    ∃ c t, w.reg t = some (c, s) ∧ w.tun c at_ = some x ∧ t0 ≤ t ∧ t ≤ at_ ∧ at_ ≤ t + 200 ∧ at_ ≤ t0 + 2200 := by
  unfold visit at h
  rcases lookup_cases w 3 t0 with ⟨i, c, s', h1, h2, h3, _⟩ | ⟨h1, _⟩
  · rw [h3] at h
    rcases process_cases w c s' (t0 + 1000 * i) with ⟨j, y, k1, k2, k3⟩ | ⟨k1, _⟩
    · rw [k2] at h
      cases h
      exact ⟨c, _, h2, k3, by omega, by omega, by omega, by omega⟩
    · rw [k1] at h; cases h
  · rw [h1] at h; cases h

/-- **C116** A visitor of a host that is there is served at once. -/
theorem served_at_once {w : World} {t0 c s x : Nat} (hr : w.reg t0 = some (c, s)) (ht : w.tun c t0 = some x) :
    visit w t0 = .served t0 s x := by
  simp [visit, lookup, hr, process, getTunnel, ht]

/-- **C116** Who is turned away, and when: after three seconds if the host was not registered at any of three moments a second
apart; 300 ms after it was found if its client has no tunnel at any of three moments. -/
theorem turned_away (w : World) (t0 : Nat) :
    (∀ t, visit w t0 = .notFound t → t = t0 + 3000 ∧
      w.reg t0 = none ∧ w.reg (t0 + 1000) = none ∧ w.reg (t0 + 2000) = none) ∧
    (∀ t, visit w t0 = .noTunnel t → t ≤ t0 + 2300 ∧ ∃ c s t', w.reg t' = some (c, s) ∧ t = t' + 300 ∧
      w.tun c t' = none ∧ w.tun c (t' + 100) = none ∧ w.tun c (t' + 200) = none) := by
  rcases lookup_cases w 3 t0 with ⟨i, c, s', h1, h2, h3, _⟩ | ⟨h1, h2⟩
  · rcases process_cases w c s' (t0 + 1000 * i) with ⟨j, y, k1, k2, k3⟩ | ⟨k1, k2⟩
    · constructor <;> intro t h <;> unfold visit at h <;> rw [h3, k2] at h <;> cases h
    · constructor <;> intro t h <;> unfold visit at h <;> rw [h3, k1] at h
      · cases h
      · cases h
        exact ⟨by omega, c, s', _, h2, rfl, by simpa using k2 0 (by omega), by simpa using k2 1 (by omega),
          by simpa using k2 2 (by omega)⟩
  · constructor <;> intro t h <;> unfold visit at h <;> rw [h1] at h <;> cases h
    exact ⟨by omega, by simpa using h2 0 (by omega), by simpa using h2 1 (by omega), by simpa using h2 2 (by omega)⟩

/-- **C116** (part) If the clients found all have tunnels, a visitor is served if the host is there two seconds later at the
latest. -/
theorem back_soon_partial {w : World} {t0 : Nat}
    (hold : ∀ t c s, t0 ≤ t → t ≤ t0 + 2000 → w.reg t = some (c, s) →
      ∀ u, t ≤ u → u ≤ t + 200 → (w.tun c u).isSome) : BackSoon w t0 := by
  rintro ⟨T, hT, hall⟩
  unfold visit
  rcases lookup_cases w 3 t0 with ⟨i, c, s', h1, h2, h3, _⟩ | ⟨h1, h2⟩
  · rw [h3]
    rcases process_cases w c s' (t0 + 1000 * i) with ⟨j, y, k1, k2, k3⟩ | ⟨k1, k2⟩
    · exact ⟨_, _, _, k2⟩
    · have := hold _ c s' (by omega) (by omega) h2 (t0 + 1000 * i) (by omega) (by omega)
      have hk := k2 0 (by omega)
      simp only [Nat.mul_zero, Nat.add_zero] at hk
      rw [hk] at this
      simp at this
  · obtain ⟨c, s, hr, _⟩ := hall (t0 + 2000) hT (by omega)
    have := h2 2 (by omega)
    rw [this] at hr
    cases hr

/-- **C116 fails**: a visitor who finds the host just as its last tunnel leaves (the client is found, its tunnels are gone)
is turned away, even if the client is back at once: the host is not looked up again. -/
theorem not_back_soon : ∃ w : World, ∃ t0, ¬ BackSoon w t0 ∧ visit w t0 = .noTunnel (t0 + 300) ∧
    ∀ t, t0 < t → w.reg t = some (2, 7) ∧ w.tun 2 t = some 5 := by
  refine ⟨⟨fun t => if t = 0 then some (1, 7) else some (2, 7), fun c t => if c = 2 then some 5 else none⟩, 0, ?_, by decide,
    ?_⟩
  · intro h
    obtain ⟨a, s, x, hx⟩ := h ⟨1, by omega, by
      intro t ht _
      have : t ≠ 0 := by omega
      exact ⟨2, 7, by simp [this], by simp⟩⟩
    have : visit ⟨fun t => if t = 0 then some (1, 7) else some (2, 7), fun c t => if c = 2 then some 5 else none⟩ 0 =
        .noTunnel 300 := by decide
    rw [this] at hx
    cases hx
  · intro t ht
    have : t ≠ 0 := by omega
    simp [this]

/-- **C116** A connection to a forwarded port waits for a tunnel of its client, at most 300 ms. -/
theorem tcp_served_iff (w : World) (c s t0 : Nat) :
    (∃ at_ x, visitTCP w c s t0 = .served at_ s x) ↔
      (w.tun c t0).isSome ∨ (w.tun c (t0 + 100)).isSome ∨ (w.tun c (t0 + 200)).isSome := by
  unfold visitTCP process
  simp only [getTunnel]
  cases h0 : w.tun c t0 <;> cases h1 : w.tun c (t0 + 100) <;> cases h2 : w.tun c (t0 + 100 + 100) <;>
    simp [h0, h1, h2] <;> simp_all

/-- **C117** Every datagram of a probe is sent back as it came, in order, ten at most.
Missing from the claim: that the loss is measured, which is false (`loss_never_measured`). -/
theorem echo_faithful_partial (n : Nat) (l : List (Option Bytes)) :
    (echo n l).length ≤ n ∧ (echo n l).map some <+: l := by
  induction n generalizing l with
  | zero => simp [echo]
  | succ n ih =>
    cases l with
    | nil => simp [echo]
    | cons d r =>
      cases d with
      | none => simp [echo]
      | some d =>
        cases d with
        | nil => simp [echo]
        | cons no t =>
          simp only [echo]
          split
          · simp
          · obtain ⟨h1, h2⟩ := ih r
            simp only [List.length_cons, List.map_cons]
            exact ⟨by omega, by rw [List.cons_prefix_cons]; exact ⟨rfl, h2⟩⟩

/-- The ten datagrams of a client are all sent back. -/
theorem echo_all (f : Nat → Bytes) :
    echo 10 ((List.range 10).map (fun i => some (UInt8.ofNat i :: f i))) = (List.range 10).map (fun i => UInt8.ofNat i :: f i) := by
  simp [List.range, List.range.loop, echo]

theorem probeLoop_cases (l : List Probe) (k sum : Nat) :
    (none ∈ l → probeLoop l k sum = none) ∧
    (none ∉ l → ∃ sum', probeLoop l k sum = some (k + l.length, sum')) := by
  induction l generalizing k sum with
  | nil => simp [probeLoop]
  | cons p t ih =>
    cases p with
    | none => simp [probeLoop]
    | some d =>
      simp only [probeLoop, List.mem_cons, List.length_cons]
      obtain ⟨h1, h2⟩ := ih (k + 1) (sum + d)
      refine ⟨fun h => h1 (by simpa using h), fun h => ?_⟩
      obtain ⟨s', hs⟩ := h2 (by simpa using h)
      exact ⟨s', by rw [hs]; congr 2; omega⟩

/-- **C117 fails**: a loss is never measured: a single lost probe makes the whole measurement fail, and a
measurement that succeeds always reports the loss 0. -/
theorem loss_never_measured (l : List Probe) (hl : l.length = 10) :
    (none ∈ l → probes l = none ∧ ¬ LossMeasured l) ∧ (none ∉ l → ∃ sum, probes l = some (sum, 0)) := by
  obtain ⟨h1, h2⟩ := probeLoop_cases l 0 0
  constructor
  · intro h
    have : probes l = none := by simp [probes, h1 h]
    refine ⟨this, ?_⟩
    rintro ⟨s, hs⟩
    rw [this] at hs
    cases hs
  · intro h
    obtain ⟨s, hs⟩ := h2 h
    exact ⟨s, by simp [probes, hs, hl]⟩

/-! ## Witnesses -/

example : (sort (Rd.new 16 [([0xF0], none), ([1, 5, 6], none)])).map Prod.fst = some .tunnel := by decide +kernel
example : (sort (Rd.new 16 [([71, 69], none), ([84], none)])).map (fun p => (p.1, rest p.2)) =
    some (.visitor, [71, 69, 84]) := by decide +kernel
example : visit ⟨fun t => if t ≥ 1500 then some (1, 7) else none, fun _ _ => some 3⟩ 0 = .served 2000 7 3 := by decide
example : visit ⟨fun t => if t ≥ 2500 then some (1, 7) else none, fun _ _ => some 3⟩ 0 = .notFound 3000 := by decide
example : probes (List.replicate 9 (some 4) ++ [none]) = none := by decide

end Verif.Server.Dispatch
