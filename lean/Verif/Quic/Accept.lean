import Verif.Common
set_option linter.unusedSimpArgs false
set_option linter.unusedVariables false
/-!
# C93: one QUIC client cannot keep the others out
(libcs/conn/quicConn.go:61-69 `Accept`, libcs/conn/msquic/listener.go:60-80 `Accept`,
libcs/server/server.go:290-338 `acceptLoop`)

The loop that accepts connections calls `Accept` of the listener again and again. On a TCP listener that
only waits for a connection. On both QUIC listeners `Accept` takes the next connection and then waits
until *that* connection opens its stream, or fails.
-/
namespace Verif.Quic.Accept

/-- What becomes of a connection after its QUIC handshake, in milliseconds since it came. -/
inductive Fate where
  /-- its first stream opens after `d` -/
  | opens (d : Nat)
  /-- it ends after `d` without having opened one: closed by the peer, or (`idle`) timed out -/
  | ends (d : Nat) (idle : Bool)
  /-- it stays open and never opens a stream -/
  | silent
deriving DecidableEq, Repr

structure Conn where
  id : Nat
  /-- when its handshake was complete -/
  at_ : Nat
  fate : Fate
deriving DecidableEq, Repr

inductive Kind where
  /-- a TCP listener (the fate plays no part) -/
  | tcp
  /-- quic-go (`openBBR` off) -/
  | quic
  /-- msquic (`openBBR` on) -/
  | msquic
deriving DecidableEq, Repr

/-- What a call of `Accept` that takes this connection does; `t` is the earliest time of its return. -/
inductive Ret where
  | conn (t : Nat)
  | err (t : Nat) (timeout : Bool)
  | blocks
deriving DecidableEq, Repr

/-- quicConn.go:61-69: `AcceptStream` waits for the stream or the end of the connection, whose error it
returns; the error of an idle timeout is a `net.Error` with `Timeout()`.
libcs/conn/msquic/listener.go:60-80: `PeerStreamStarted` does the same, but every failure becomes an `errors.New`,
which is no timeout. A TCP listener returns the connection at once.
(The error of `ln.Listener.Accept` itself, which quicConn.go:62 drops, comes only from closing the
listener; nobody closes it.) -/
def accept (k : Kind) (c : Conn) : Ret :=
  match k, c.fate with
  | .tcp, _ => .conn c.at_
  | .quic, .opens d => .conn (c.at_ + d)
  | .quic, .ends d i => .err (c.at_ + d) i
  | .quic, .silent => .blocks
  | .msquic, .opens d => .conn (c.at_ + d)
  | .msquic, .ends d _ => .err (c.at_ + d) false
  | .msquic, .silent => .blocks

inductive Status where
  | looping
  /-- inside `Accept`, for ever -/
  | blocked
  /-- `acceptLoop` has returned -/
  | ended
deriving DecidableEq, Repr

structure St where
  status : Status := .looping
  now : Nat := 0
  /-- `tempDelay`, in milliseconds -/
  delay : Nat := 0
  /-- the connections handed to a handler, and when -/
  handled : List (Conn × Nat) := []
deriving DecidableEq, Repr

/-- libcs/server/server.go:317-324: 5 ms, then doubled, at most 1 s. -/
def nextDelay (d : Nat) : Nat :=
  let d' := if d = 0 then 5 else d * 2
  if d' > 1000 then 1000 else d'

/-- whether `closing` is set at time `t`, if the shutdown began at `ca` -/
def closed (ca : Option Nat) (t : Nat) : Bool :=
  match ca with
  | none => false
  | some a => a ≤ t

/-- libcs/server/server.go:305-337: one iteration of the loop, for the next connection in the listener's queue.
`ca`: when the server's shutdown begins, if it does. -/
def step (k : Kind) (ca : Option Nat) (s : St) (c : Conn) : St :=
  match s.status with
  | .looping =>
    if closed ca s.now then { s with status := .ended }
    else match accept k c with
      | .conn t =>
        { s with now := max s.now t, handled := s.handled ++ [(c, max s.now t)] }
      | .err t timeout =>
        let t' := max s.now t
        if closed ca t' then { s with now := t', status := .ended }
        else if timeout then { s with now := t' + nextDelay s.delay, delay := nextDelay s.delay }
        else { s with now := t', status := .ended }
      | .blocks => { s with status := .blocked }
  | _ => s

/-- The loop over the connections in the order in which they came. -/
def run (k : Kind) (ca : Option Nat) (s : St) (l : List Conn) : St := l.foldl (step k ca) s

/-! ## What the specification speaks of -/

/-- the connection opens a stream -/
def Opens (c : Conn) : Bool :=
  match c.fate with
  | .opens _ => true
  | _ => false

/-- the connection is silent, or was closed by the peer before it opened a stream -/
def Fatal (k : Kind) (c : Conn) : Bool :=
  match k, c.fate with
  | .tcp, _ => false
  | _, .opens _ => false
  | .quic, .ends _ idle => !idle
  | .msquic, .ends _ _ => true
  | _, .silent => true

/-- when the connection is ready to be served, on its own account -/
def readyAt (k : Kind) (c : Conn) : Nat :=
  match k, c.fate with
  | .tcp, _ => c.at_
  | _, .opens d => c.at_ + d
  | _, .ends d _ => c.at_ + d
  | _, .silent => c.at_

/-! ## Lemmas -/

theorem run_nil (k ca s) : run k ca s [] = s := rfl
theorem run_cons (k ca s c l) : run k ca s (c :: l) = run k ca (step k ca s c) l := rfl

theorem run_append (k ca s l₁ l₂) : run k ca s (l₁ ++ l₂) = run k ca (run k ca s l₁) l₂ := by
  simp [run, List.foldl_append]

theorem step_stuck {k ca s} (h : s.status ≠ .looping) (c) : step k ca s c = s := by
  unfold step
  cases hs : s.status <;> simp_all

theorem run_stuck {k ca} (l : List Conn) : ∀ {s : St}, s.status ≠ .looping → run k ca s l = s := by
  induction l with
  | nil => intro s _; rfl
  | cons c l ih => intro s h; rw [run_cons, step_stuck h]; exact ih h

theorem step_tcp {s : St} (h : s.status = .looping) (c : Conn) :
    step .tcp none s c = { s with now := max s.now c.at_, handled := s.handled ++ [(c, max s.now c.at_)] } := by
  simp [step, h, closed, accept]

theorem step_opens {k} (hk : k ≠ .tcp) {s : St} (h : s.status = .looping) {c : Conn} (ho : Opens c = true) :
    step k none s c = { s with now := max s.now (readyAt k c), handled := s.handled ++ [(c, max s.now (readyAt k c))] } := by
  cases hf : c.fate <;> simp [Opens, hf] at ho
  cases k <;> simp_all [step, closed, accept, readyAt]

theorem step_fatal {k} {ca} {s : St} (h : s.status = .looping) {c : Conn} (ho : Fatal k c = true) :
    (step k ca s c).status ≠ .looping ∧ (step k ca s c).handled = s.handled := by
  unfold step
  rw [h]
  dsimp only
  split
  · simp
  · cases hf : c.fate <;> cases k <;> simp_all [Fatal, accept] <;> split <;> simp

theorem step_idle {k} {s : St} (h : s.status = .looping) {c : Conn} (ho : Opens c = false)
    (hf : Fatal k c = false) (hk : k ≠ .tcp) :
    step k none s c =
      { s with now := max s.now (readyAt k c) + nextDelay s.delay, delay := nextDelay s.delay } := by
  cases hc : c.fate <;> cases k <;> simp_all [Opens, Fatal, step, accept, closed, readyAt]

theorem nextDelay_le (d : Nat) : nextDelay d ≤ 1000 := by
  unfold nextDelay
  dsimp only
  generalize (if d = 0 then 5 else d * 2) = x
  split <;> omega

/-! ## Theorems -/

/-- The TCP listener: every connection is handed to a handler, in order, whatever its peer does. -/
theorem tcp_all_handled (l : List Conn) :
    (run .tcp none {} l).handled.map Prod.fst = l ∧ (run .tcp none {} l).status = .looping := by
  suffices h : ∀ (l : List Conn) (s : St), s.status = .looping →
      (run .tcp none s l).handled.map Prod.fst = s.handled.map Prod.fst ++ l ∧
      (run .tcp none s l).status = .looping by
    simpa using h l {} rfl
  intro l
  induction l with
  | nil => intro s h; simp [run_nil, h]
  | cons c l ih =>
    intro s h
    rw [run_cons, step_tcp h]
    have := ih { s with now := max s.now c.at_, handled := s.handled ++ [(c, max s.now c.at_)] } h
    simpa using this

theorem tcp_now (l : List Conn) : ∀ (s : St) (pre : List Conn), s.status = .looping →
    (∀ p ∈ s.handled, p.2 = p.1.at_) → (∀ c ∈ l, s.now ≤ c.at_) →
    l.Pairwise (fun a b => a.at_ ≤ b.at_) →
    ∀ p ∈ (run .tcp none s l).handled, p.2 = p.1.at_ := by
  induction l with
  | nil => intro s _ _ h _ _ p hp; exact h p hp
  | cons c l ih =>
    intro s pre h hh hl hp p hm
    rw [run_cons, step_tcp h] at hm
    have hc := hl c (by simp)
    have e : max s.now c.at_ = c.at_ := by omega
    refine ih { s with now := max s.now c.at_, handled := s.handled ++ [(c, max s.now c.at_)] } [] h ?_ ?_ ?_ p hm
    · intro q hq
      simp only [List.mem_append, List.mem_singleton] at hq
      rcases hq with hq | rfl
      · exact hh q hq
      · exact e
    · intro d hd
      have := (List.pairwise_cons.1 hp).1 d hd
      show max s.now c.at_ ≤ d.at_
      omega
    · exact (List.pairwise_cons.1 hp).2

/-- The TCP listener: each connection is handed over the moment it comes. -/
theorem tcp_handled_at_once (l : List Conn) (h : l.Pairwise (fun a b => a.at_ ≤ b.at_)) :
    ∀ p ∈ (run .tcp none {} l).handled, p.2 = p.1.at_ :=
  tcp_now l {} [] rfl (by simp) (by simp) h

theorem handled_quic_aux {k} (hk : k ≠ .tcp) (l : List Conn) : ∀ (s : St), s.status = .looping →
    (run k none s l).handled.map Prod.fst =
      s.handled.map Prod.fst ++ (l.takeWhile (fun c => !Fatal k c)).filter Opens := by
  induction l with
  | nil => intro s _; simp [run_nil]
  | cons c l ih =>
    intro s h
    rw [run_cons]
    cases hf : Fatal k c with
    | true =>
      have ⟨h1, h2⟩ := step_fatal (ca := none) h hf
      rw [run_stuck l h1, h2]
      simp [List.takeWhile, hf]
    | false =>
      cases ho : Opens c with
      | true =>
        rw [step_opens hk h ho, ih _ (by exact h)]
        simp [List.takeWhile, hf, ho]
      | false =>
        rw [step_idle h ho hf hk, ih _ (by exact h)]
        simp [List.takeWhile, hf, ho]

/-- **The QUIC listeners, exactly**: the connections that are ever served are those that open a stream
and come before the first one that is silent or that its peer closes too early
(msquic: the first one that does not open a stream, for whatever reason). -/
theorem quic_handled {k : Kind} (hk : k ≠ .tcp) (l : List Conn) :
    (run k none {} l).handled.map Prod.fst = (l.takeWhile (fun c => !Fatal k c)).filter Opens := by
  simpa using handled_quic_aux hk l {} rfl

/-- If every connection opens its stream, all are served, in order.
C93. Missing from the claim: the case that some connection opens no stream, where it is false (`one_client_ends_service`). -/
theorem all_served_if_all_open_partial {k : Kind} (hk : k ≠ .tcp) (l : List Conn) (h : ∀ c ∈ l, Opens c = true) :
    (run k none {} l).handled.map Prod.fst = l := by
  have hf : ∀ c ∈ l, Fatal k c = false := by
    intro c hc
    have := h c hc
    cases hx : c.fate <;> simp_all [Opens, Fatal] <;> cases k <;> simp_all
  rw [quic_handled hk]
  have e : l.takeWhile (fun c => !Fatal k c) = l := by
    clear h
    induction l with
    | nil => rfl
    | cons c l ih =>
      have h1 := hf c (by simp)
      have h2 := ih (fun c hc => hf c (List.mem_cons_of_mem _ hc))
      simp [List.takeWhile, h1, h2]
  rw [e]
  exact List.filter_eq_self.2 h

/-- (violation) After a client that connects and stays silent, or (quic-go) is closed by its peer before it opens
a stream, or (msquic) ends in any way without one, no QUIC client is ever served again. -/
theorem one_client_ends_service {k : Kind} (hk : k ≠ .tcp) (pre post : List Conn) (c : Conn)
    (h : Fatal k c = true) :
    (run k none {} (pre ++ c :: post)).handled = (run k none {} pre).handled := by
  rw [run_append, run_cons]
  by_cases hs : (run k none {} pre).status = .looping
  · have ⟨h1, h2⟩ := step_fatal (k := k) (ca := none) hs h
    rw [run_stuck post h1, h2]
  · rw [step_stuck hs, run_stuck post hs]

/-- Idle time-outs on quic-go do not end the service. -/
theorem idle_clients_are_skipped (l : List Conn)
    (h : ∀ c ∈ l, Opens c = true ∨ ∃ d, c.fate = .ends d true) :
    (run .quic none {} l).handled.map Prod.fst = l.filter Opens := by
  rw [quic_handled (by simp)]
  have e : l.takeWhile (fun c => !Fatal .quic c) = l := by
    induction l with
    | nil => rfl
    | cons c l ih =>
      have h1 : Fatal .quic c = false := by
        rcases h c (by simp) with h1 | ⟨d, h1⟩
        · cases hx : c.fate <;> simp_all [Opens, Fatal]
        · simp [Fatal, h1]
      have h2 := ih (fun c hc => h c (List.mem_cons_of_mem _ hc))
      simp [List.takeWhile, h1, h2]
  rw [e]

/-- the time of the loop after serving `l`, started at `t` -/
theorem open_times {k} (hk : k ≠ .tcp) (l : List Conn) : ∀ (s : St), s.status = .looping →
    (∀ c ∈ l, Opens c = true) →
    (run k none s l).status = .looping ∧
    (∀ c ∈ l, readyAt k c ≤ (run k none s l).now) ∧ s.now ≤ (run k none s l).now ∧
    ((run k none s l).now = s.now ∨ ∃ c ∈ l, (run k none s l).now = readyAt k c) ∧
    (run k none s l).delay = s.delay := by
  induction l with
  | nil => intro s h _; simp [run_nil, h]
  | cons c l ih =>
    intro s h ho
    rw [run_cons, step_opens hk h (ho c (by simp))]
    obtain ⟨a, b, d, e, f⟩ := ih { s with now := max s.now (readyAt k c), handled := s.handled ++ [(c, max s.now (readyAt k c))] } h
      (fun c hc => ho c (List.mem_cons_of_mem _ hc))
    simp only at d e f
    refine ⟨a, ?_, by omega, ?_, f⟩
    · intro x hx
      rcases List.mem_cons.1 hx with rfl | hx
      · omega
      · exact b x hx
    · rcases e with e | ⟨x, hx, e⟩
      · rw [e]
        by_cases hle : s.now ≤ readyAt k c
        · right; exact ⟨c, by simp, by omega⟩
        · left; omega
      · exact Or.inr ⟨x, List.mem_cons_of_mem _ hx, e⟩

/-- **Head-of-line blocking, exactly**: if all connections open their streams, a connection is served at the
latest of the ready times of itself and *all connections before it*. -/
theorem served_at_latest_ready_time {k : Kind} (hk : k ≠ .tcp) (pre post : List Conn) (c : Conn)
    (h : ∀ x ∈ pre ++ c :: post, Opens x = true) :
    ∃ t, (run k none {} (pre ++ c :: post)).handled[pre.length]? = some (c, t) ∧
      (∀ x ∈ pre ++ [c], readyAt k x ≤ t) ∧ (∃ x ∈ pre ++ [c], t = readyAt k x) := by
  have hpre : ∀ x ∈ pre, Opens x = true := fun x hx => h x (by simp [hx])
  have hc : Opens c = true := h c (by simp)
  have hpost : ∀ x ∈ post, Opens x = true := fun x hx => h x (by simp [hx])
  obtain ⟨a, b, d, e, f⟩ := open_times hk pre {} rfl hpre
  have hl : (run k none {} pre).handled.length = pre.length := by
    rw [← List.length_map (f := Prod.fst), all_served_if_all_open_partial hk pre hpre]
  rw [run_append, run_cons, step_opens hk a hc]
  refine ⟨max (run k none {} pre).now (readyAt k c), ?_, ?_, ?_⟩
  · suffices hs : ∀ (l : List Conn) (s : St), s.status = .looping → (∀ x ∈ l, Opens x = true) →
        ∀ i, i < s.handled.length → (run k none s l).handled[i]? = s.handled[i]? by
      refine (hs post { (run k none {} pre) with
        now := max (run k none {} pre).now (readyAt k c),
        handled := (run k none {} pre).handled ++ [(c, max (run k none {} pre).now (readyAt k c))] } a hpost pre.length
        (by simp [hl])).trans ?_
      simp [hl]
    intro l
    induction l with
    | nil => intro s _ _ i _; rfl
    | cons y l ih =>
      intro s hs hy i hi
      rw [run_cons, step_opens hk hs (hy y (by simp)), ih _ (by exact hs) (fun x hx => hy x (List.mem_cons_of_mem _ hx)) i
        (by simp; omega)]
      simp [List.getElem?_append_left hi]
  · intro x hx
    simp only [List.mem_append, List.mem_singleton] at hx
    rcases hx with hx | rfl
    · have := b x hx; omega
    · omega
  · by_cases hle : (run k none {} pre).now ≤ readyAt k c
    · exact ⟨c, by simp, by omega⟩
    · rcases e with e | ⟨x, hx, e⟩
      · have e' : (run k none ({} : St) pre).now = 0 := e
        omega
      · exact ⟨x, by simp [hx], by omega⟩

/-- (violation) So a client that takes its time delays everyone behind it by as much: for every delay `d`. -/
theorem slow_client_delays_all {k : Kind} (hk : k ≠ .tcp) (d : Nat) :
    (run k none {} [⟨1, 0, .opens d⟩, ⟨2, 0, .opens 0⟩]).handled
      = [(⟨1, 0, .opens d⟩, d), (⟨2, 0, .opens 0⟩, d)] := by
  rw [run_cons, step_opens hk rfl rfl, run_cons, step_opens hk rfl rfl, run_nil]
  cases k <;> simp_all [readyAt]

/-- Number of clients that timed out. -/
def idleCount (l : List Conn) : Nat := (l.filter (fun c => !Opens c)).length

theorem bound_aux (l : List Conn) : ∀ (s : St) (M B : Nat), s.status = .looping →
    (∀ c ∈ l, Opens c = true ∨ ∃ d, c.fate = .ends d true) → (∀ c ∈ l, readyAt .quic c ≤ M) →
    max s.now M + 1000 * idleCount l ≤ B → (∀ p ∈ s.handled, p.2 ≤ B) →
    ∀ p ∈ (run .quic none s l).handled, p.2 ≤ B := by
  induction l with
  | nil => intro s M B _ _ _ _ hh p hp; exact hh p hp
  | cons c l ih =>
    intro s M B h hl hM hB hh p hp
    have hr := hM c (by simp)
    have hM' := fun c hc => hM c (List.mem_cons_of_mem _ hc)
    have hl' := fun c hc => hl c (List.mem_cons_of_mem _ hc)
    rw [run_cons] at hp
    cases ho : Opens c with
    | true =>
      have ei : idleCount (c :: l) = idleCount l := by simp [idleCount, ho]
      rw [ei] at hB
      rw [step_opens (by simp) h ho] at hp
      refine ih { s with now := max s.now (readyAt .quic c), handled := s.handled ++ [(c, max s.now (readyAt .quic c))] } M B h hl' hM' ?_ ?_ p hp
      · simp only; omega
      · intro q hq
        simp only [List.mem_append, List.mem_singleton] at hq
        rcases hq with hq | rfl
        · exact hh q hq
        · simp only; omega
    | false =>
      have ei : idleCount (c :: l) = idleCount l + 1 := by simp [idleCount, ho]
      have hf : Fatal .quic c = false := by
        rcases hl c (by simp) with h1 | ⟨d, h1⟩
        · simp [h1] at ho
        · simp [Fatal, h1]
      rw [step_idle h ho hf (by simp)] at hp
      have hn := nextDelay_le s.delay
      rw [ei] at hB
      refine ih { s with now := max s.now (readyAt .quic c) + nextDelay s.delay, delay := nextDelay s.delay } M B h hl' hM' ?_ hh p hp
      simp only; omega

/-- quic-go: with clients that time out in between, nobody waits longer than the latest ready time of all and one
second for each of those. -/
theorem delay_bounded (l : List Conn) (M : Nat)
    (h : ∀ c ∈ l, Opens c = true ∨ ∃ d, c.fate = .ends d true) (hM : ∀ c ∈ l, readyAt .quic c ≤ M) :
    ∀ p ∈ (run .quic none {} l).handled, p.2 ≤ M + 1000 * (l.filter (fun c => !Opens c)).length := by
  exact bound_aux l {} M _ rfl h hM (by simp [idleCount]) (by simp)

theorem step_handled {k} (hk : k ≠ .tcp) (ca) (s : St) (c : Conn) :
    (step k ca s c).handled = s.handled ∨
    (Opens c = true ∧ (step k ca s c).handled = s.handled ++ [(c, max s.now (readyAt k c))]) := by
  unfold step
  split
  · split
    · exact Or.inl rfl
    · cases hf : c.fate <;> cases k <;> simp_all [accept, Opens, readyAt] <;>
        (split <;> first | rfl | (split <;> rfl))
  · exact Or.inl rfl

/-- Nobody is served before they are ready (so the model's times mean something). -/
theorem not_before_ready {k : Kind} (hk : k ≠ .tcp) (ca) (l : List Conn) :
    ∀ p ∈ (run k ca {} l).handled, Opens p.1 = true ∧ readyAt k p.1 ≤ p.2 := by
  suffices h : ∀ (l : List Conn) (s : St), (∀ p ∈ s.handled, Opens p.1 = true ∧ readyAt k p.1 ≤ p.2) →
      ∀ p ∈ (run k ca s l).handled, Opens p.1 = true ∧ readyAt k p.1 ≤ p.2 from h l {} (by simp)
  intro l
  induction l with
  | nil => intro s h; exact h
  | cons c l ih =>
    intro s h
    rw [run_cons]
    apply ih
    intro p hp
    rcases step_handled hk ca s c with e | ⟨ho, e⟩
    · rw [e] at hp; exact h p hp
    · rw [e] at hp
      simp only [List.mem_append, List.mem_singleton] at hp
      rcases hp with hp | rfl
      · exact h p hp
      · exact ⟨ho, by simp only; omega⟩

/-! ## Shutdown: the QUIC listener is never closed -/

theorem step_closed {k ca} {s : St} (h : closed ca s.now = true) (c) :
    (step k ca s c).handled = s.handled ∧ (step k ca s c).status ≠ .looping := by
  unfold step
  cases hs : s.status <;> simp [h, hs]

theorem late_le_one {k} (a : Nat) (l : List Conn) : ∀ (s : St),
    (closed (some a) s.now = false → ∀ p ∈ s.handled, p.2 < a) →
    (s.handled.filter (fun p => a ≤ p.2)).length ≤ 1 →
    ((run k (some a) s l).handled.filter (fun p => a ≤ p.2)).length ≤ 1 := by
  induction l with
  | nil => intro s _ h; exact h
  | cons c l ih =>
    intro s h1 h2
    rw [run_cons]
    cases hc : closed (some a) s.now with
    | true =>
      obtain ⟨e, e'⟩ := step_closed (k := k) hc c
      rw [run_stuck l e', e]; exact h2
    | false =>
      have hlt := h1 hc
      have hz : s.handled.filter (fun p => a ≤ p.2) = [] := by
        rw [List.filter_eq_nil_iff]
        intro p hp
        have := hlt p hp
        simp; omega
      apply ih
      · intro hn
        unfold step at hn ⊢
        split at hn
        · rw [if_neg (by simp [hc])] at hn ⊢
          split at hn
          · intro p hp
            simp only [List.mem_append, List.mem_singleton] at hp
            rcases hp with hp | rfl
            · exact hlt p hp
            · simp [closed] at hn ⊢; omega
          · dsimp only
            split
            · exact hlt
            · split <;> exact hlt
          · exact hlt
        · exact hlt
      · unfold step
        split
        · rw [if_neg (by simp [hc])]
          split
          · simp only [List.filter_append, hz, List.nil_append]
            exact Nat.le_trans (List.length_filter_le _ _) (by simp)
          · dsimp only
            split
            · exact h2
            · split <;> exact h2
          · exact h2
        · exact h2

/-- After the server's shutdown has begun at most one more QUIC connection is served. -/
theorem at_most_one_after_shutdown {k : Kind} (a : Nat) (l : List Conn) :
    ((run k (some a) {} l).handled.filter (fun p => a ≤ p.2)).length ≤ 1 :=
  late_le_one a l {} (by simp) (by simp)

/-- (violation) And one can be: the loop looks at the flag only between connections. -/
theorem one_after_shutdown :
    (run .quic (some 10) {} [⟨1, 0, .opens 0⟩, ⟨2, 20, .opens 0⟩, ⟨3, 30, .opens 0⟩]).handled
      = [(⟨1, 0, .opens 0⟩, 0), (⟨2, 20, .opens 0⟩, 20)] := by decide

/-! ## Witnesses -/

example : (run .tcp none {} [⟨1, 0, .silent⟩, ⟨2, 3, .opens 5⟩, ⟨3, 4, .ends 1 false⟩]).handled.map (fun p => (p.1.id, p.2))
    = [(1, 0), (2, 3), (3, 4)] := by decide
example : ([⟨1, 0, .silent⟩, ⟨2, 3, .opens 5⟩] : List Conn).Pairwise (fun a b => a.at_ ≤ b.at_) := by decide
example : (run .quic none {} [⟨1, 0, .opens 7⟩, ⟨2, 3, .ends 30000 true⟩, ⟨3, 4, .opens 1⟩, ⟨4, 5, .ends 1 false⟩, ⟨5, 6, .opens 1⟩]).handled.map (fun p => (p.1.id, p.2))
    = [(1, 7), (3, 30008)] := by decide
example : (run .msquic none {} [⟨1, 0, .opens 7⟩, ⟨2, 3, .ends 9 true⟩, ⟨3, 4, .opens 1⟩]).handled.map (fun p => (p.1.id, p.2))
    = [(1, 7)] := by decide
example : Fatal .quic ⟨1, 0, .silent⟩ = true ∧ Fatal .quic ⟨1, 0, .ends 5 false⟩ = true ∧ Fatal .quic ⟨1, 0, .ends 5 true⟩ = false ∧
    Fatal .msquic ⟨1, 0, .ends 5 true⟩ = true := by decide
example : ∀ c ∈ ([⟨1, 0, .opens 3⟩, ⟨2, 1, .ends 30000 true⟩] : List Conn), Opens c = true ∨ ∃ d, c.fate = .ends d true := by
  intro c hc
  simp at hc
  rcases hc with rfl | rfl
  · exact Or.inl rfl
  · exact Or.inr ⟨30000, rfl⟩

end Verif.Quic.Accept
