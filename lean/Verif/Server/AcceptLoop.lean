import Verif.Common
set_option linter.unusedSimpArgs false
set_option linter.unusedVariables false
/-!
# C109: the server goes on accepting connections
(libcs/server/server.go:290-338 `acceptLoop`, for TCP, TLS, SNI and forwarded TCP ports;
libcs/client/tcpforward.go:40-63, the same loop in the client's P2P forwarder)

For the QUIC listeners see Quic/Accept.
-/
namespace Verif.Server.AcceptLoop

/-- Why `Accept` of a TCP listener fails. -/
inductive Errno where
  /-- no free file descriptor in the process -/
  | emfile
  /-- none in the system -/
  | enfile
  /-- the error of a passed deadline -/
  | timedOut
  /-- no memory for the socket -/
  | enomem
  /-- the listener was closed -/
  | closed
deriving DecidableEq, Repr

/-- `net.Error.Timeout` of the error (Go: `syscall.Errno.Timeout` is true for `EAGAIN`, `EWOULDBLOCK` and
`ETIMEDOUT` only). -/
def Errno.timeout : Errno → Bool
  | .timedOut => true
  | _ => false

/-- What happens: connections and failures as `Accept` returns them, and the beginning of the shutdown (which
closes the listener). -/
inductive Ev where
  | conn (id : Nat)
  | fail (e : Errno)
  | shutdown
deriving DecidableEq, Repr

structure St where
  /-- the loop has not returned -/
  looping : Bool := true
  closing : Bool := false
  /-- `tempDelay`, in milliseconds -/
  delay : Nat := 0
  /-- the connections given to a handler -/
  handled : List Nat := []
  /-- `s.accepted` -/
  accepted : Nat := 0
  /-- the waits, in milliseconds -/
  slept : List Nat := []
deriving DecidableEq, Repr

/-- libcs/server/server.go:317-324: 5 ms, then doubled, at most 1 s. -/
def nextDelay (d : Nat) : Nat :=
  let d' := if d = 0 then 5 else d * 2
  if d' > 1000 then 1000 else d'

/-- libcs/server/server.go:305-337: one return of `Accept`. After the shutdown has begun no further connection
is accepted: the listener is closed (or the flag is seen, 306-308). -/
def step (s : St) : Ev → St
  | .shutdown => { s with closing := true }
  | .conn i =>
    if !s.looping then s
    else if s.closing then { s with looping := false }
    else { s with handled := s.handled ++ [i], accepted := s.accepted + 1 }
  | .fail e =>
    if !s.looping then s
    else if s.closing then { s with looping := false }
    else if e.timeout then
      { s with delay := nextDelay s.delay, slept := s.slept ++ [nextDelay s.delay] }
    else { s with looping := false }

def run (s : St) (l : List Ev) : St := l.foldl step s

/-! ## Specification -/

/-- A failure that passes: the same call may succeed later. -/
def Errno.transient : Errno → Bool
  | .closed => false
  | _ => true

/-- the connections among the events, in order -/
def conns (l : List Ev) : List Nat :=
  l.filterMap fun
    | .conn i => some i
    | _ => none

/-- the events of a server that is not being shut down and whose listener is open -/
def Running (l : List Ev) : Prop := ∀ e ∈ l, e ≠ .shutdown ∧ e ≠ .fail .closed

/-- The full property C109: while the server runs every connection is handled, once and in order, whatever
transient failures there are. -/
def KeepsAccepting (l : List Ev) : Prop := Running l → (run {} l).handled = conns l

/-- The full property C109 about waiting: after a success the next wait is short again. -/
def DelayRestarts (l : List Ev) : Prop :=
  ∀ i, (run {} (l ++ [.conn i, .fail .timedOut])).slept = (run {} l).slept ++ [5]

/-! ## Proofs -/

theorem run_append (s : St) (a b : List Ev) : run s (a ++ b) = run (run s a) b := List.foldl_append

theorem run_ended {s : St} (h : s.looping = false) (l : List Ev) :
    (run s l).looping = false ∧ (run s l).handled = s.handled := by
  induction l generalizing s with
  | nil => exact ⟨h, rfl⟩
  | cons e t ih =>
    have : (step s e).looping = false ∧ (step s e).handled = s.handled := by
      cases e <;> simp [step, h]
    exact ⟨(ih this.1).1, (ih this.1).2.trans this.2⟩

theorem nextDelay_bounds (d : Nat) : 0 < nextDelay d ∧ nextDelay d ≤ 1000 := by
  unfold nextDelay; dsimp only; split <;> split <;> omega

theorem step_ok {s : St} {e : Ev} (hl : s.looping = true) (hc : s.closing = false)
    (he : e ≠ .shutdown) (ht : ∀ x, e = .fail x → x.timeout = true) :
    (step s e).looping = true ∧ (step s e).closing = false ∧
    (step s e).handled = s.handled ++ conns [e] := by
  cases e with
  | shutdown => exact absurd rfl he
  | conn i => simp [step, hl, hc, conns]
  | fail x => simp [step, hl, hc, conns, ht x rfl]

theorem run_ok {s : St} {l : List Ev} (hl : s.looping = true) (hc : s.closing = false)
    (h : ∀ e ∈ l, e ≠ .shutdown ∧ ∀ x, e = .fail x → x.timeout = true) :
    (run s l).looping = true ∧ (run s l).closing = false ∧ (run s l).handled = s.handled ++ conns l := by
  induction l generalizing s with
  | nil => simp [run, hl, hc, conns]
  | cons e t ih =>
    obtain ⟨h1, h2, h3⟩ := step_ok hl hc (h e (by simp)).1 (h e (by simp)).2
    obtain ⟨k1, k2, k3⟩ := ih h1 h2 (fun x hx => h x (by simp [hx]))
    refine ⟨k1, k2, ?_⟩
    show (run (step s e) t).handled = _
    rw [k3, h3, List.append_assoc]
    congr 1
    cases e <;> simp [conns]

/-- **C109** (part) If all failures are timeouts the loop never ends and every connection is handled once and
in order. -/
theorem keeps_accepting_partial {l : List Ev}
    (h : ∀ x, Ev.fail x ∈ l → x.timeout = true) : KeepsAccepting l := by
  intro hr
  have := (run_ok (s := {}) rfl rfl (l := l) (fun e he => ⟨(hr e he).1, fun x hx => h x (hx ▸ he)⟩)).2.2
  simpa using this

/-- **C109** Whatever happens, what is handled is a prefix of the connections, none twice and none skipped,
and the counter of accepted connections counts them. -/
theorem handled_prefix (l : List Ev) :
    (run {} l).handled <+: conns l ∧ (run {} l).accepted = (run {} l).handled.length := by
  have key : ∀ (l : List Ev) (s : St), (run s l).handled <+: s.handled ++ conns l ∧
      (s.accepted = s.handled.length → (run s l).accepted = (run s l).handled.length) := by
    intro l
    induction l with
    | nil => intro s; simp [run, conns]
    | cons e t ih =>
      intro s
      obtain ⟨h1, h2⟩ := ih (step s e)
      have hs : ((step s e).handled = s.handled ++ conns [e] ∨
          ((step s e).looping = false ∧ (step s e).handled = s.handled)) ∧
          (s.accepted = s.handled.length → (step s e).accepted = (step s e).handled.length) := by
        cases e with
        | shutdown => simp [step, conns]
        | conn i =>
          cases hl : s.looping <;> cases hc : s.closing <;> simp [step, hl, hc, conns]
        | fail x =>
          cases hl : s.looping <;> cases hc : s.closing <;> cases hx : x.timeout <;>
            simp [step, hl, hc, hx, conns]
      have hcons : conns (e :: t) = conns [e] ++ conns t := by cases e <;> simp [conns]
      refine ⟨?_, fun ha => h2 (hs.2 ha)⟩
      rcases hs.1 with hh | ⟨hl, hh⟩
      · rw [hcons, ← List.append_assoc, ← hh]; exact h1
      · show (run (step s e) t).handled <+: _
        rw [(run_ended hl t).2, hh]
        exact List.prefix_append _ _
  have := key l {}
  exact ⟨by simpa using this.1, this.2 rfl⟩

/-- **C109** Every wait is positive and at most one second. -/
theorem waits_bounded (l : List Ev) : ∀ d ∈ (run {} l).slept, 0 < d ∧ d ≤ 1000 := by
  have key : ∀ (l : List Ev) (s : St), (∀ d ∈ s.slept, 0 < d ∧ d ≤ 1000) →
      ∀ d ∈ (run s l).slept, 0 < d ∧ d ≤ 1000 := by
    intro l
    induction l with
    | nil => intro s h; exact h
    | cons e t ih =>
      intro s h
      refine ih (step s e) ?_
      cases e with
      | shutdown => exact h
      | conn i => cases hl : s.looping <;> cases hc : s.closing <;> simpa [step, hl, hc] using h
      | fail x =>
        cases hl : s.looping <;> cases hc : s.closing <;> cases hx : x.timeout <;>
          simp only [step, hl, hc, hx] <;> try exact h
        intro d hd
        rcases List.mem_append.mp hd with hd | hd
        · exact h d hd
        · rw [List.mem_singleton.mp hd]; exact nextDelay_bounds _
  exact key l {} (by simp)

/-- **C109** After the shutdown has begun no connection is handled. -/
theorem nothing_after_shutdown (a b : List Ev) :
    (run {} (a ++ .shutdown :: b)).handled = (run {} a).handled := by
  have key : ∀ (l : List Ev) (s : St), s.closing = true → (run s l).handled = s.handled := by
    intro l
    induction l with
    | nil => intro s h; rfl
    | cons e t ih =>
      intro s h
      have : (step s e).handled = s.handled ∧ (step s e).closing = true := by
        cases e <;> cases hl : s.looping <;> simp [step, hl, h]
      exact (ih _ this.2).trans this.1
  rw [run_append]
  exact key b _ rfl

/-- **C109 fails**: one failure for lack of file descriptors (or memory) ends the loop; although the server
runs on, no later connection is handled, however many descriptors are free again. -/
theorem deaf_after_emfile {a : List Ev} (ha : Running a) (hn : ∀ x, Ev.fail x ∈ a → x.timeout = true)
    {e : Errno} (he : e = .emfile ∨ e = .enfile ∨ e = .enomem) (b : List Ev) :
    e.transient = true ∧ (run {} (a ++ .fail e :: b)).looping = false ∧
    (run {} (a ++ .fail e :: b)).handled = conns a := by
  refine ⟨by rcases he with rfl | rfl | rfl <;> rfl, ?_⟩
  have h := run_ok (s := {}) rfl rfl (l := a) (fun x hx => ⟨(ha x hx).1, fun y hy => hn y (hy ▸ hx)⟩)
  have hs : (step (run {} a) (.fail e)).looping = false ∧
      (step (run {} a) (.fail e)).handled = (run {} a).handled := by
    rcases he with rfl | rfl | rfl <;> simp [step, h.1, h.2.1, Errno.timeout]
  rw [run_append]
  obtain ⟨k1, k2⟩ := run_ended hs.1 b
  refine ⟨k1, ?_⟩
  show (run (step (run {} a) (.fail e)) b).handled = _
  rw [k2, hs.2, h.2.2]
  simp

/-- So the property fails for every such history with a connection after the failure. -/
theorem not_keeps_accepting {a b : List Ev} {e : Errno} (he : e = .emfile ∨ e = .enfile ∨ e = .enomem)
    (ha : Running (a ++ .fail e :: b)) (hn : ∀ x, Ev.fail x ∈ a → x.timeout = true) (hb : conns b ≠ []) :
    ¬ KeepsAccepting (a ++ .fail e :: b) := by
  intro h
  have h1 := h ha
  have h2 := (deaf_after_emfile (fun x hx => ha x (by simp [hx])) hn he b).2.2
  rw [h2] at h1
  have : conns (a ++ .fail e :: b) = conns a ++ conns b := by simp [conns, List.filterMap_append]
  rw [this] at h1
  have := congrArg List.length h1
  simp at this
  exact hb this

/-- **C109 fails**: the wait is not reset by a success: after failures far apart in time, each followed by
successes, the wait is still doubled. -/
theorem delay_never_reset : ¬ DelayRestarts [.fail .timedOut] := by
  intro h
  have := h 0
  revert this
  decide

/-- In general, the waits are those of uninterrupted failures, whatever is accepted in between. -/
theorem waits_ignore_successes (l : List Ev) :
    (run {} l).looping = true → (run {} (l.filter fun e => match e with | .conn _ => false | _ => true)).slept =
      (run {} l).slept := by
  have key : ∀ (l : List Ev) (s s' : St), s.slept = s'.slept → s.delay = s'.delay →
      s.looping = s'.looping → s.closing = s'.closing → (run s l).looping = true →
      (run s' (l.filter fun e => match e with | .conn _ => false | _ => true)).slept = (run s l).slept := by
    intro l
    induction l with
    | nil => intro s s' h1 _ _ _ _; exact h1.symm
    | cons e t ih =>
      intro s s' h1 h2 h3 h4 hr
      have hlive : s.looping = true := by
        cases hl : s.looping with
        | true => rfl
        | false => rw [(run_ended hl (e :: t)).1] at hr; exact absurd hr (by simp)
      have hstep : (step s e).looping = true := by
        cases hl : (step s e).looping with
        | true => rfl
        | false =>
          have : (run (step s e) t).looping = true := hr
          rw [(run_ended hl t).1] at this; exact absurd this (by simp)
      cases e with
      | conn i =>
        have hc : s.closing = false := by
          cases hc : s.closing with
          | false => rfl
          | true => simp [step, hlive, hc] at hstep
        simp only [List.filter]
        refine ih (step s (.conn i)) s' ?_ ?_ ?_ ?_ hr <;> simp [step, hlive, hc, h1, h2, ← h3, ← h4]
      | shutdown =>
        simp only [List.filter]
        exact ih (step s .shutdown) (step s' .shutdown) h1 h2 h3 rfl hr
      | fail x =>
        simp only [List.filter]
        refine ih (step s (.fail x)) (step s' (.fail x)) ?_ ?_ ?_ ?_ hr <;>
          simp only [step, h1, h2, h3, h4] <;> split <;> try split
        all_goals try split
        all_goals first | rfl | assumption | simp_all
  exact fun h => key l {} {} rfl rfl rfl rfl h

/-! ## Witnesses -/

example : (run {} [.conn 1, .fail .timedOut, .conn 2]).handled = [1, 2] ∧
    KeepsAccepting [.conn 1, .fail .timedOut, .conn 2] :=
  ⟨by decide, keeps_accepting_partial (by intro x hx; simp at hx; subst hx; rfl)⟩

example : (run {} [.conn 1, .fail .emfile, .conn 2, .conn 3]).handled = [1] := by decide
example : ¬ KeepsAccepting [.conn 1, .fail .emfile, .conn 2, .conn 3] :=
  not_keeps_accepting (a := [.conn 1]) (b := [.conn 2, .conn 3]) (.inl rfl)
    (by intro e he; simp at he; rcases he with rfl | rfl | rfl | rfl <;> simp) (by intro x hx; simp at hx) (by decide)
example : (run {} [.fail .timedOut, .conn 1, .fail .timedOut, .conn 2, .fail .timedOut]).slept = [5, 10, 20] := by
  decide

end Verif.Server.AcceptLoop
