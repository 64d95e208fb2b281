import Verif.Common
set_option linter.unusedSimpArgs false
set_option linter.unusedVariables false
/-!
# C65, C66: the connection loops of a client
(libcs/client/client.go:350-381 `dial`; 516-526; 602-629 `Shutdown`; 631-707 `initConn`, `connect`, `connectLoop`;
libcs/conn/quicConn.go:32-48 `QuicDial`; libcs/client/idle.go:66-84)

A client runs `RemoteConnections` loops for each remote. All loops share `idleManager.initMtx`, which `connect` holds from
before `Init` until the first handshake has been written. Every event is one atomic step of one loop; all loops interleave
arbitrarily.
-/
namespace Verif.Client.Loop

/-! ## Dialling -/

/-- libcs/client/client.go:206-214 `dialer`: the addresses of one remote host, empty if not configured. (`preferQuic` is
never set.) -/
structure Dialer where
  tcp : Bytes
  tls : Bytes
  quic : Bytes
  bbr : Bool
deriving DecidableEq, Repr

/-- How an attempt ends: the transport connection and the handshake succeed, an error is returned, or a panic unwinds. -/
inductive Res where
  | ok | err | panic
deriving DecidableEq, Repr

inductive Transport where
  | tcp | tls | quicGo | msquic
deriving DecidableEq, Repr

/-- libcs/client/client.go:367-381 `dial`. -/
def transport (d : Dialer) : Option Transport :=
  if d.tls ≠ [] then some .tls
  else if d.quic ≠ [] then (if d.bbr then some .msquic else some .quicGo)
  else if d.tcp ≠ [] then some .tcp
  else none

/-- The result of `dial`, for a network that is up or not. `QuicDial` panics if the dial fails
(libcs/conn/quicConn.go:35-41); the others return the error. -/
def dial (d : Dialer) (up : Bool) : Res :=
  match transport d with
  | none => .err
  | some .quicGo => if up then .ok else .panic
  | some _ => if up then .ok else .err

/-! ## The loops -/

/-- Where a loop is. -/
inductive PC where
  /-- `connectLoop`: about to look at `closing` (libcs/client/client.go:700) -/
  | head
  /-- waits for `initMtx` (659) -/
  | want
  /-- holds `initMtx`, connects and writes the handshake (660-665) -/
  | dialing
  /-- `readLoop`; `ready` once the server has said so (668) -/
  | reading (ready : Bool)
  /-- after the tunnel (678-686) -/
  | pause
  /-- `WaitIdle` (687) -/
  | asleep
  /-- asks the remote API for the address (689-698) -/
  | api
  | done
deriving DecidableEq, Repr

structure St where
  pc : Nat → PC
  /-- the loop that locked `initMtx` last, if it is locked -/
  lock : Option Nat
  closing : Bool
  /-- tunnels that were sent the close signal by `Shutdown` -/
  told : Nat → Bool
  /-- connection attempts begun by each loop -/
  attempts : Nat → Nat

/-- libcs/client/client.go:519-526: the loops have just been started. -/
def init : St := { pc := fun _ => .head, lock := none, closing := false, told := fun _ => false, attempts := fun _ => 0 }

inductive Ev where
  | head (i : Nat)
  /-- `initMtx.Lock()` and `Init`; `park`: enough connections are idle -/
  | acquire (i : Nat) (park : Bool)
  | dialed (i : Nat) (r : Res)
  | ready (i : Nat)
  /-- `readLoop` returns; it panics -/
  | lost (i : Nat)
  | crash (i : Nat)
  | pause (i : Nat)
  | released (i : Nat) (api : Bool)
  | api (i : Nat) (ok : Bool)
  /-- `Shutdown`: `closing` is set and the tunnels are told (602-622) -/
  | shutdown
deriving DecidableEq, Repr

def upd {α} (f : Nat → α) (t : Nat) (x : α) : Nat → α := fun y => if y = t then x else f y

def go (s : St) (i : Nat) (p : PC) : St := { s with pc := upd s.pc i p }

/-- Simplified: `closing` is read once in the pause (libcs/client/client.go:679, 683), and `Shutdown` sends its signals in one step.
What `WaitIdle` waits for is C18. -/
def step (s : St) : Ev → St
  | .head i => if s.pc i = .head then go s i (if s.closing then .done else .want) else s
  | .acquire i park =>
    if s.pc i = .want ∧ s.lock = none then
      if park then go s i .pause
      else { go s i .dialing with lock := some i, attempts := upd s.attempts i (s.attempts i + 1) }
    else s
  | .dialed i r =>
    if s.pc i = .dialing then
      match r with
      | .ok => { go s i (.reading false) with lock := none }
      | .err => { go s i .pause with lock := none }
      -- the deferred function recovers, `closing = false` is returned, and nobody unlocks `initMtx`
      | .panic => go s i .head
    else s
  | .ready i => if s.pc i = .reading false then go s i (.reading true) else s
  | .lost i => match s.pc i with
    | .reading _ => { go s i .pause with told := upd s.told i false }
    | _ => s
  | .crash i => match s.pc i with
    | .reading _ => { go s i .head with told := upd s.told i false }
    | _ => s
  | .pause i => if s.pc i = .pause then go s i (if s.closing then .done else .asleep) else s
  | .released i api => if s.pc i = .asleep then go s i (if api then .api else .head) else s
  | .api i ok =>
    if s.pc i = .api then
      if s.closing then go s i .done else if ok then go s i .head else s
    else s
  | .shutdown => if s.closing then s
    else { s with closing := true, told := fun i => decide (s.pc i = .reading true) }

def run (s : St) : List Ev → St
  | [] => s
  | e :: es => run (step s e) es

/-! ## Specification -/

/-- No attempt ends with a panic. -/
def NoPanic (es : List Ev) : Prop := ∀ e ∈ es, ∀ i, e ≠ .dialed i .panic

/-- `initMtx` is locked and the loop that locked it is past the place where it unlocks it. -/
def Abandoned (s : St) : Prop := ∃ i, s.lock = some i ∧ s.pc i ≠ .dialing

/-! ## Proofs -/

theorem upd_self {α} (f : Nat → α) (t : Nat) (x : α) : upd f t x t = x := by simp [upd]
theorem upd_ne {α} (f : Nat → α) {t y : Nat} (x : α) (h : y ≠ t) : upd f t x y = f y := by simp [upd, h]

/-- The lock is held exactly by the loop that is dialling. -/
def Inv (s : St) : Prop := ∀ i, s.pc i = .dialing ↔ s.lock = some i

theorem inv_go {s : St} (h : Inv s) {i : Nat} {p : PC} (hp : p ≠ .dialing) (hi : s.pc i ≠ .dialing) : Inv (go s i p) := by
  intro j
  show upd s.pc i p j = .dialing ↔ s.lock = some j
  by_cases e : j = i
  · subst e
    rw [upd_self]
    constructor
    · intro h1; exact absurd h1 hp
    · intro h1; exact absurd ((h j).mpr h1) hi
  · rw [upd_ne _ _ e]; exact h j

theorem inv_told {s : St} (h : Inv s) (f : Nat → Bool) : Inv { s with told := f } := h

theorem inv_step {s : St} (h : Inv s) (e : Ev) (he : ∀ i, e ≠ .dialed i .panic) : Inv (step s e) := by
  cases e with
  | head i =>
    simp only [step]; split
    · rename_i hp
      exact inv_go h (by split <;> simp) (by rw [hp]; simp)
    · exact h
  | acquire i park =>
    simp only [step]; split
    · rename_i hp
      split
      · exact inv_go h (by simp) (by rw [hp.1]; simp)
      · intro j
        show upd s.pc i .dialing j = .dialing ↔ some i = some j
        by_cases e : j = i
        · subst e; simp [upd_self]
        · rw [upd_ne _ _ e]
          constructor
          · intro h1
            have := (h j).mp h1
            rw [hp.2] at this; cases this
          · intro h1; cases h1; exact absurd rfl e
    · exact h
  | dialed i r =>
    simp only [step]; split
    · rename_i hp
      have hl := (h i).mp hp
      have key : ∀ p : PC, p ≠ .dialing → Inv { go s i p with lock := none } := by
        intro p hp' j
        show upd s.pc i p j = .dialing ↔ none = some j
        by_cases e : j = i
        · subst e; rw [upd_self]; simp [hp']
        · rw [upd_ne _ _ e]
          constructor
          · intro h1
            have := (h j).mp h1
            rw [hl] at this; cases this; exact absurd rfl e
          · intro h1; cases h1
      cases r with
      | ok => exact key _ (by simp)
      | err => exact key _ (by simp)
      | panic => exact absurd rfl (he i)
    · exact h
  | ready i =>
    simp only [step]; split
    · rename_i hp; exact inv_go h (by simp) (by rw [hp]; simp)
    · exact h
  | lost i =>
    simp only [step]; split
    · rename_i b hp; exact inv_told (inv_go h (by simp) (by rw [hp]; simp)) _
    · exact h
  | crash i =>
    simp only [step]; split
    · rename_i b hp; exact inv_told (inv_go h (by simp) (by rw [hp]; simp)) _
    · exact h
  | pause i =>
    simp only [step]; split
    · rename_i hp; exact inv_go h (by split <;> simp) (by rw [hp]; simp)
    · exact h
  | released i a =>
    simp only [step]; split
    · rename_i hp; exact inv_go h (by split <;> simp) (by rw [hp]; simp)
    · exact h
  | api i ok =>
    simp only [step]; split
    · rename_i hp
      split
      · exact inv_go h (by simp) (by rw [hp]; simp)
      · split
        · exact inv_go h (by simp) (by rw [hp]; simp)
        · exact h
    · exact h
  | shutdown => simp only [step]; split <;> exact h

theorem inv_run : ∀ (es : List Ev) {s : St}, Inv s → NoPanic es → Inv (run s es)
  | [], _, h, _ => h
  | e :: es, _, h, hn => inv_run es (inv_step h e (hn e List.mem_cons_self)) (fun x hx => hn x (List.mem_cons_of_mem _ hx))

theorem inv_init : Inv init := by intro i; simp [init]

theorem run_append (s : St) (a b : List Ev) : run s (a ++ b) = run (run s a) b := by
  induction a generalizing s with
  | nil => rfl
  | cons e es ih => exact ih (step s e)

/-- As long as no attempt panics, the lock of the connection attempts is held only by a loop that is dialling. -/
theorem lock_is_not_abandoned (es : List Ev) (hn : NoPanic es) : ¬ Abandoned (run init es) := by
  rintro ⟨i, h1, h2⟩
  exact h2 ((inv_run es inv_init hn i).mpr h1)

/-- From `want` with the lock free, an attempt begins. -/
theorem try_from_want {s : St} {i : Nat} (hp : s.pc i = .want) (hl : s.lock = none) :
    (step s (.acquire i false)).attempts i = s.attempts i + 1 := by
  simp only [step, if_pos (And.intro hp hl)]
  exact upd_self ..

theorem free_lock {s : St} (h : Inv s) {i : Nat} (hp : s.pc i = .want) :
    ∃ es', NoPanic es' ∧ (run s es').pc i = .want ∧ (run s es').lock = none ∧ (run s es').attempts i = s.attempts i := by
  cases hl : s.lock with
  | none => exact ⟨[], fun x hx => (by cases hx), hp, hl, rfl⟩
  | some j =>
    have hj := (h j).mpr hl
    have hne : i ≠ j := fun e => by rw [e, hj] at hp; cases hp
    refine ⟨[.dialed j .err], ?_, ?_, ?_, ?_⟩
    · intro x hx k; rw [List.mem_singleton] at hx; subst hx; intro h; cases h
    · show (step s (.dialed j .err)).pc i = .want
      simp only [step, if_pos hj]
      show upd s.pc j .pause i = .want
      rw [upd_ne _ _ hne]; exact hp
    · show (step s (.dialed j .err)).lock = none
      simp only [step, if_pos hj]
    · show (step s (.dialed j .err)).attempts i = s.attempts i
      simp only [step, if_pos hj]; rfl

theorem to_want {s : St} (hc : s.closing = false) {i : Nat} (hd : s.pc i ≠ .done) (hdi : s.pc i ≠ .dialing) :
    ∃ es', NoPanic es' ∧ (run s es').pc i = .want ∧ (run s es').attempts i = s.attempts i := by
  have hh : ∀ (q : St), q.closing = false → q.pc i = .head → (step q (.head i)).pc i = .want ∧
      (step q (.head i)).attempts i = q.attempts i := by
    intro q hq hp
    simp only [step, if_pos hp, hq]
    exact ⟨upd_self .., rfl⟩
  have hnp : ∀ l : List Ev, (∀ e ∈ l, ∀ k, e ≠ .dialed k .panic) → NoPanic l := fun l h => h
  have hs : ∀ (q : St), q.closing = false → q.pc i = .pause →
      (run q [.pause i, .released i false, .head i]).pc i = .want ∧
      (run q [.pause i, .released i false, .head i]).attempts i = q.attempts i := by
    intro q hq hp
    have e1 : step q (.pause i) = go q i .asleep := by simp [step, hp, hq]
    have e2 : step (go q i .asleep) (.released i false) = go (go q i .asleep) i .head := by
      have : (go q i .asleep).pc i = .asleep := upd_self ..
      simp [step, this]
    simp only [run, e1, e2]
    have h3 := hh (go (go q i .asleep) i .head) hq (upd_self ..)
    exact ⟨h3.1, h3.2⟩
  cases hp : s.pc i with
  | done => exact absurd hp hd
  | dialing => exact absurd hp hdi
  | want => exact ⟨[], fun x hx => (by cases hx), hp, rfl⟩
  | head =>
    have := hh s hc hp
    exact ⟨[.head i], by intro x hx k; simp at hx; subst hx; simp, this.1, this.2⟩
  | pause =>
    have := hs s hc hp
    exact ⟨_, by intro x hx k; simp at hx; rcases hx with rfl | rfl | rfl <;> simp, this.1, this.2⟩
  | asleep =>
    have e2 : step s (.released i false) = go s i .head := by simp [step, hp]
    have h3 := hh (go s i .head) hc (upd_self ..)
    refine ⟨[.released i false, .head i], by intro x hx k; simp at hx; rcases hx with rfl | rfl <;> simp, ?_, ?_⟩
    · simp only [run, e2]; exact h3.1
    · simp only [run, e2]; exact h3.2
  | api =>
    have e2 : step s (.api i true) = go s i .head := by simp [step, hp, hc]
    have h3 := hh (go s i .head) hc (upd_self ..)
    refine ⟨[.api i true, .head i], by intro x hx k; simp at hx; rcases hx with rfl | rfl <;> simp, ?_, ?_⟩
    · simp only [run, e2]; exact h3.1
    · simp only [run, e2]; exact h3.2
  | reading b =>
    have e1 : step s (.lost i) = { go s i .pause with told := upd s.told i false } := by simp [step, hp]
    have h3 := hs { go s i .pause with told := upd s.told i false } hc (upd_self ..)
    refine ⟨[.lost i, .pause i, .released i false, .head i], ?_, ?_, ?_⟩
    · intro x hx k; simp at hx; rcases hx with rfl | rfl | rfl | rfl <;> simp
    · show (run (step s (.lost i)) _).pc i = .want
      rw [e1]; exact h3.1
    · show (run (step s (.lost i)) _).attempts i = _
      rw [e1]; exact h3.2

theorem noPanic_append {a b : List Ev} (ha : NoPanic a) (hb : NoPanic b) : NoPanic (a ++ b) := by
  intro x hx k
  rcases List.mem_append.mp hx with h | h
  · exact ha x h k
  · exact hb x h k

theorem closing_run_false : ∀ (es : List Ev) (s : St), (run s es).closing = false → s.closing = false := by
  intro es
  induction es with
  | nil => intro s h; exact h
  | cons e es ih =>
    intro s h
    have := ih (step s e) h
    cases e <;> simp only [step] at this <;> (try split at this) <;> (try split at this) <;> (try split at this) <;>
      first | exact this | exact absurd this (by simp) | skip
    all_goals simp_all

/-- A loop is over only if the client was told to shut down. -/
theorem done_step {s : St} (h : ∀ i, s.pc i = .done → s.closing = true) (e : Ev) :
    ∀ i, (step s e).pc i = .done → (step s e).closing = true := by
  have hgo : ∀ (k : Nat) (p : PC), (p = .done → s.closing = true) → ∀ i, upd s.pc k p i = .done → s.closing = true := by
    intro k p hp i hi
    by_cases e : i = k
    · subst e; rw [upd_self] at hi; exact hp hi
    · rw [upd_ne _ _ e] at hi; exact h i hi
  intro i
  cases e with
  | head k =>
    simp only [step]; split
    · exact hgo k _ (by split <;> simp_all) i
    · exact h i
  | acquire k p =>
    simp only [step]; split
    · split
      · exact hgo k _ (by simp) i
      · exact hgo k _ (by simp) i
    · exact h i
  | dialed k r =>
    simp only [step]; split
    · cases r <;> exact hgo k _ (by simp) i
    · exact h i
  | ready k =>
    simp only [step]; split
    · exact hgo k _ (by simp) i
    · exact h i
  | lost k =>
    simp only [step]; split
    · exact hgo k _ (by simp) i
    · exact h i
  | crash k =>
    simp only [step]; split
    · exact hgo k _ (by simp) i
    · exact h i
  | pause k =>
    simp only [step]; split
    · exact hgo k _ (by split <;> simp_all) i
    · exact h i
  | released k a =>
    simp only [step]; split
    · exact hgo k _ (by split <;> simp) i
    · exact h i
  | api k ok =>
    simp only [step]; split
    · split
      · rename_i hc; exact hgo k _ (fun _ => hc) i
      · split
        · exact hgo k _ (by simp) i
        · exact h i
    · exact h i
  | shutdown =>
    simp only [step]; split
    · exact h i
    · intro _; rfl

theorem done_run : ∀ (es : List Ev) {s : St}, (∀ i, s.pc i = .done → s.closing = true) →
    ∀ i, (run s es).pc i = .done → (run s es).closing = true
  | [], _, h => h
  | e :: es, _, h => done_run es (done_step h e)

/-- No loop of an open client is over, even after panics. -/
theorem open_client_has_all_loops (es : List Ev) (hc : (run init es).closing = false) (i : Nat) :
    (run init es).pc i ≠ .done := fun h => by
  have := done_run es (s := init) (fun i h => by cases h) i h
  rw [hc] at this; cases this

/-- **C65**: while the client is open, every loop can always begin another attempt, whatever happened before (failed
attempts, lost and crashed tunnels, parked loops, any order): it is never locked out by the others. Provided no attempt
panicked; otherwise it is false (`panic_stops_all_attempts`). -/
theorem every_loop_can_try_again_partial (es : List Ev) (hn : NoPanic es) (i : Nat)
    (hc : (run init es).closing = false) :
    ∃ es', NoPanic es' ∧ (run init (es ++ es')).attempts i = (run init es).attempts i + 1 := by
  have hi := inv_run es inv_init hn
  have hd := open_client_has_all_loops es hc i
  have aux : ∀ s : St, Inv s → s.closing = false → s.pc i ≠ .done → s.pc i ≠ .dialing →
      ∃ es', NoPanic es' ∧ (run s es').attempts i = s.attempts i + 1 := by
    intro s hi hc hd hdi
    obtain ⟨e1, n1, p1, a1⟩ := to_want hc hd hdi
    obtain ⟨e2, n2, p2, l2, a2⟩ := free_lock (inv_run e1 hi n1) p1
    refine ⟨e1 ++ e2 ++ [.acquire i false], ?_, ?_⟩
    · refine noPanic_append (noPanic_append n1 n2) ?_
      intro x hx k; rw [List.mem_singleton] at hx; subst hx; simp
    · rw [run_append, run_append]
      show (step (run (run s e1) e2) (.acquire i false)).attempts i = _
      rw [try_from_want p2 l2, a2, a1]
  by_cases hdi : (run init es).pc i = .dialing
  · have e1 : step (run init es) (.dialed i .err) = { go (run init es) i .pause with lock := none } := by
      simp [step, hdi]
    have hi' : Inv (step (run init es) (.dialed i .err)) := inv_step hi _ (by intro k h; cases h)
    obtain ⟨es', n', a'⟩ := aux (step (run init es) (.dialed i .err)) hi' (by rw [e1]; exact hc)
      (by rw [e1]; show upd _ i PC.pause i ≠ _; rw [upd_self]; simp)
      (by rw [e1]; show upd _ i PC.pause i ≠ _; rw [upd_self]; simp)
    refine ⟨.dialed i .err :: es', ?_, ?_⟩
    · intro x hx k
      rcases List.mem_cons.mp hx with rfl | h
      · intro h; cases h
      · exact n' x h k
    · rw [run_append]
      show (run (step (run init es) (.dialed i .err)) es').attempts i = _
      rw [a', e1]; rfl
  · obtain ⟨es', n', a'⟩ := aux _ hi hc hd hdi
    exact ⟨es', n', by rw [run_append]; exact a'⟩

/-! ### The lock excludes -/

/-- While one loop dials, no other loop begins an attempt, whatever happens to the others. -/
theorem dialling_excludes {s : St} (h : Inv s) {j : Nat} (hj : s.pc j = .dialing) :
    ∀ (es : List Ev), NoPanic es → (∀ e ∈ es, ∀ r, e ≠ .dialed j r) → ∀ i, (run s es).attempts i = s.attempts i
  | [], _, _, _ => rfl
  | e :: es, hn, he, i => by
    have hi' := inv_step h e (hn e List.mem_cons_self)
    have hl : s.lock = some j := (h j).mp hj
    have hk : (step s e).pc j = .dialing ∧ (step s e).attempts = s.attempts := by
      have hne := he e List.mem_cons_self
      have hgo : ∀ (k : Nat) (p : PC), s.pc k ≠ .dialing → (go s k p).pc j = .dialing := by
        intro k p hk
        show upd s.pc k p j = .dialing
        rw [upd_ne _ _ (fun e => hk (by rw [← e]; exact hj))]; exact hj
      cases e with
      | head k => simp only [step]; split
                  · rename_i hp; exact ⟨hgo k _ (by rw [hp]; simp), rfl⟩
                  · exact ⟨hj, rfl⟩
      | acquire k p => simp only [step]; rw [if_neg (by rintro ⟨_, h2⟩; rw [hl] at h2; cases h2)]; exact ⟨hj, rfl⟩
      | dialed k r =>
        have hkj : k ≠ j := fun e => hne r (by rw [e])
        have : s.pc k ≠ .dialing := fun hp => by
          have := (h k).mp hp; rw [hl] at this; cases this; exact hkj rfl
        simp only [step]; rw [if_neg this]; exact ⟨hj, rfl⟩
      | ready k => simp only [step]; split
                   · rename_i hp; exact ⟨hgo k _ (by rw [hp]; simp), rfl⟩
                   · exact ⟨hj, rfl⟩
      | lost k => simp only [step]; split
                  · rename_i b hp; exact ⟨hgo k _ (by rw [hp]; simp), rfl⟩
                  · exact ⟨hj, rfl⟩
      | crash k => simp only [step]; split
                   · rename_i b hp; exact ⟨hgo k _ (by rw [hp]; simp), rfl⟩
                   · exact ⟨hj, rfl⟩
      | pause k => simp only [step]; split
                   · rename_i hp; exact ⟨hgo k _ (by rw [hp]; simp), rfl⟩
                   · exact ⟨hj, rfl⟩
      | released k a => simp only [step]; split
                        · rename_i hp; exact ⟨hgo k _ (by rw [hp]; simp), rfl⟩
                        · exact ⟨hj, rfl⟩
      | api k ok => simp only [step]; split
                    · rename_i hp
                      split
                      · exact ⟨hgo k _ (by rw [hp]; simp), rfl⟩
                      · split
                        · exact ⟨hgo k _ (by rw [hp]; simp), rfl⟩
                        · exact ⟨hj, rfl⟩
                    · exact ⟨hj, rfl⟩
      | shutdown => simp only [step]; split <;> exact ⟨hj, rfl⟩
    have := dialling_excludes hi' hk.1 es (fun x hx => hn x (List.mem_cons_of_mem _ hx))
      (fun x hx => he x (List.mem_cons_of_mem _ hx)) i
    show (run (step s e) es).attempts i = _
    rw [this, hk.2]

/-- An unreachable remote holds up all others: from the moment a loop starts to dial until its dial ends, no loop of any
remote begins an attempt. -/
theorem one_dial_holds_up_all (es es' : List Ev) (hn : NoPanic es) (hn' : NoPanic es') (j : Nat)
    (hj : (run init es).pc j = .dialing) (he : ∀ e ∈ es', ∀ r, e ≠ .dialed j r) (i : Nat) :
    (run init (es ++ es')).attempts i = (run init es).attempts i := by
  rw [run_append]; exact dialling_excludes (inv_run es inv_init hn) hj es' hn' he i

/-! ### A panic abandons the lock -/

/-- Nobody dials, and the lock is held. -/
def Stuck (s : St) : Prop := s.lock ≠ none ∧ ∀ i, s.pc i ≠ .dialing

theorem stuck_step {s : St} (h : Stuck s) (e : Ev) : Stuck (step s e) ∧ (step s e).attempts = s.attempts ∧
    ∀ i, s.pc i = .want → (step s e).pc i = .want := by
  have hgo : ∀ (k : Nat) (p q : PC), p ≠ .dialing → s.pc k = q → q ≠ .want → Stuck (go s k p) ∧
      ∀ i, s.pc i = .want → (go s k p).pc i = .want := by
    intro k p q hp hk hq
    refine ⟨⟨h.1, fun i => ?_⟩, fun i hi => ?_⟩
    · show upd s.pc k p i ≠ .dialing
      by_cases e : i = k
      · subst e; rw [upd_self]; exact hp
      · rw [upd_ne _ _ e]; exact h.2 i
    · show upd s.pc k p i = .want
      by_cases e : i = k
      · subst e; rw [hk] at hi; exact absurd hi hq
      · rw [upd_ne _ _ e]; exact hi
  have hid : Stuck s ∧ s.attempts = s.attempts ∧ ∀ i, s.pc i = .want → s.pc i = .want := ⟨h, rfl, fun _ h => h⟩
  cases e with
  | head k =>
    simp only [step]; split
    · rename_i hp
      have := hgo k (if s.closing = true then .done else .want) _ (by split <;> simp) hp (by simp)
      exact ⟨this.1, rfl, this.2⟩
    · exact hid
  | acquire k p => simp only [step]; rw [if_neg (by rintro ⟨_, h2⟩; exact h.1 h2)]; exact hid
  | dialed k r => simp only [step]; rw [if_neg (h.2 k)]; exact hid
  | ready k =>
    simp only [step]; split
    · rename_i hp
      have := hgo k (.reading true) _ (by simp) hp (by simp)
      exact ⟨this.1, rfl, this.2⟩
    · exact hid
  | lost k =>
    simp only [step]; split
    · rename_i b hp
      have := hgo k .pause _ (by simp) hp (by simp)
      exact ⟨this.1, rfl, this.2⟩
    · exact hid
  | crash k =>
    simp only [step]; split
    · rename_i b hp
      have := hgo k .head _ (by simp) hp (by simp)
      exact ⟨this.1, rfl, this.2⟩
    · exact hid
  | pause k =>
    simp only [step]; split
    · rename_i hp
      have := hgo k (if s.closing = true then .done else .asleep) _ (by split <;> simp) hp (by simp)
      exact ⟨this.1, rfl, this.2⟩
    · exact hid
  | released k a =>
    simp only [step]; split
    · rename_i hp
      have := hgo k (if a = true then .api else .head) _ (by split <;> simp) hp (by simp)
      exact ⟨this.1, rfl, this.2⟩
    · exact hid
  | api k ok =>
    simp only [step]; split
    · rename_i hp
      split
      · have := hgo k .done _ (by simp) hp (by simp)
        exact ⟨this.1, rfl, this.2⟩
      · split
        · have := hgo k .head _ (by simp) hp (by simp)
          exact ⟨this.1, rfl, this.2⟩
        · exact hid
    · exact hid
  | shutdown => simp only [step]; split <;> exact hid

theorem stuck_run : ∀ (es : List Ev) {s : St}, Stuck s → Stuck (run s es) ∧ (run s es).attempts = s.attempts ∧
    ∀ i, s.pc i = .want → (run s es).pc i = .want
  | [], _, h => ⟨h, rfl, fun _ h => h⟩
  | e :: es, s, h => by
    obtain ⟨h1, h2, h3⟩ := stuck_step h e
    obtain ⟨h4, h5, h6⟩ := stuck_run es h1
    exact ⟨h4, h5.trans h2, fun i hi => h6 i (h3 i hi)⟩

/-- **C65 is false of the code**: if an attempt panics once, no loop of the client, for whatever remote, ever begins an
attempt again, in any continuation. -/
theorem panic_stops_all_attempts (es es' : List Ev) (hn : NoPanic es) (i : Nat) (hi : (run init es).pc i = .dialing) :
    (run init (es ++ .dialed i .panic :: es')).attempts = (run init es).attempts := by
  have hv := inv_run es inv_init hn
  have hl := (hv i).mp hi
  have e1 : step (run init es) (.dialed i .panic) = go (run init es) i .head := by simp [step, hi]
  have hs : Stuck (step (run init es) (.dialed i .panic)) := by
    rw [e1]
    refine ⟨by rw [show (go (run init es) i .head).lock = _ from hl]; simp, fun j => ?_⟩
    show upd (run init es).pc i .head j ≠ .dialing
    by_cases e : j = i
    · subst e; rw [upd_self]; simp
    · rw [upd_ne _ _ e]
      intro h1
      have := (hv j).mp h1
      rw [hl] at this; cases this; exact e rfl
  rw [run_append]
  show (run (step (run init es) (.dialed i .panic)) es').attempts = _
  rw [(stuck_run es' hs).2.1, e1]; rfl

/-- And such a client cannot be shut down in an orderly way: a loop that waits for the lock never ends, so that the wait of
`Shutdown` for all loops never returns. -/
theorem panic_blocks_shutdown (es es' : List Ev) (hn : NoPanic es) (i k : Nat) (hi : (run init es).pc i = .dialing)
    (hk : (run init es).pc k = .want) : (run init (es ++ .dialed i .panic :: es')).pc k = .want := by
  have hv := inv_run es inv_init hn
  have hl := (hv i).mp hi
  have hne : k ≠ i := fun e => by rw [e, hi] at hk; cases hk
  have e1 : step (run init es) (.dialed i .panic) = go (run init es) i .head := by simp [step, hi]
  have hs : Stuck (step (run init es) (.dialed i .panic)) := by
    rw [e1]
    refine ⟨by rw [show (go (run init es) i .head).lock = _ from hl]; simp, fun j => ?_⟩
    show upd (run init es).pc i .head j ≠ .dialing
    by_cases e : j = i
    · subst e; rw [upd_self]; simp
    · rw [upd_ne _ _ e]
      intro h1
      have := (hv j).mp h1
      rw [hl] at this; cases this; exact e rfl
  rw [run_append]
  show (run (step (run init es) (.dialed i .panic)) es').pc k = _
  refine (stuck_run es' hs).2.2 k ?_
  rw [e1]
  show upd _ i PC.head k = PC.want
  rw [upd_ne _ _ hne]; exact hk

/-- Attempts panic exactly for a remote that is reached by QUIC without BBR and cannot be reached. -/
theorem dial_panics_iff (d : Dialer) (up : Bool) :
    dial d up = .panic ↔ d.tls = [] ∧ d.quic ≠ [] ∧ d.bbr = false ∧ up = false := by
  unfold dial transport
  by_cases h1 : d.tls = [] <;> by_cases h2 : d.quic = [] <;> cases h3 : d.bbr <;> cases up <;> by_cases h4 : d.tcp = [] <;>
    simp [h1, h2, h3, h4]

/-- A remote host that is reached by TLS or TCP never makes an attempt panic. -/
theorem dial_ok_iff (d : Dialer) (up : Bool) :
    dial d up = .ok ↔ up = true ∧ (d.tls ≠ [] ∨ d.quic ≠ [] ∨ d.tcp ≠ []) := by
  obtain ⟨tcp, tls, quic, bbr⟩ := d
  unfold dial transport
  cases tls <;> cases quic <;> cases tcp <;> cases bbr <;> cases up <;> simp

theorem tls_and_tcp_never_panic (d : Dialer) (up : Bool) (h : d.tls ≠ [] ∨ d.quic = []) : dial d up ≠ .panic := by
  intro h'
  obtain ⟨h1, h2, _⟩ := (dial_panics_iff d up).mp h'
  rcases h with h | h
  · exact h h1
  · exact h2 h

/-- Every attempt of loop `i` that ends does so as `dial` to the address of its remote says. -/
def Dials (d : Nat → Dialer) (es : List Ev) : Prop := ∀ e ∈ es, ∀ i r, e = .dialed i r → ∃ up, r = dial (d i) up ∨ r = .err

/-- A client all of whose remotes are reached by TLS, TCP or QUIC with BBR: every loop can always begin another attempt, and
no loop is over before `Shutdown`, whatever fails and whatever the loops do. -/
theorem tls_tcp_client_keeps_trying (d : Nat → Dialer) (hd : ∀ i, (d i).tls ≠ [] ∨ (d i).quic = [] ∨ (d i).bbr = true)
    (es : List Ev) (hes : Dials d es) (hc : (run init es).closing = false) (i : Nat) :
    (run init es).pc i ≠ .done ∧ ∃ es', (run init (es ++ es')).attempts i = (run init es).attempts i + 1 := by
  have hn : NoPanic es := by
    intro e he k hk
    obtain ⟨up, h | h⟩ := hes e he k .panic hk
    · obtain ⟨h1, h2, h3, _⟩ := (dial_panics_iff (d k) up).mp h.symm
      rcases hd k with h | h | h
      · exact h h1
      · exact h2 h
      · rw [h3] at h; cases h
    · cases h
  obtain ⟨es', _, h⟩ := every_loop_can_try_again_partial es hn i hc
  exact ⟨open_client_has_all_loops es hc i, es', h⟩

/-- Non-vacuity: one TLS remote and one TCP remote, both fail. -/
example : let d : Nat → Dialer := fun i => if i = 0 then ⟨[], [1], [], false⟩ else ⟨[2], [], [], false⟩
    Dials d [.head 0, .head 1, .acquire 0 false, .dialed 0 (dial (d 0) false), .acquire 1 false, .dialed 1 (dial (d 1) false)] ∧
    (run init [.head 0, .head 1, .acquire 0 false, .dialed 0 (dial (d 0) false), .acquire 1 false,
      .dialed 1 (dial (d 1) false)]).attempts 1 = 1 := by
  refine ⟨fun e he i r h => ?_, rfl⟩
  subst h
  simp at he
  rcases he with ⟨rfl, rfl⟩ | ⟨rfl, rfl⟩
  · exact ⟨false, .inl rfl⟩
  · exact ⟨false, .inl rfl⟩

/-- Non-vacuity: two remotes; the first is unreachable by QUIC, and the second is never tried. -/
example : (run init [.head 0, .head 1, .acquire 0 false]).pc 0 = .dialing ∧
    (run init [.head 0, .head 1, .acquire 0 false]).pc 1 = .want ∧
    dial ⟨[], [], [1], false⟩ false = .panic ∧
    (run init [.head 0, .head 1, .acquire 0 false, .dialed 0 .panic, .acquire 1 false, .head 0, .acquire 0 false]).attempts 1 = 0 :=
  ⟨rfl, rfl, rfl, rfl⟩

/-- Non-vacuity: a tunnel is lost and the loop tries again. -/
example : (run init [.head 0, .acquire 0 false, .dialed 0 .ok, .ready 0, .lost 0, .pause 0, .released 0 false, .head 0,
    .acquire 0 false]).attempts 0 = 2 := rfl

/-! ## C66: shutting down -/

/-- After `Shutdown` began with every loop that holds a connection ready, the only loops that still read are those that
were told to stop, and no loop begins an attempt again unless it was already waiting for the lock. -/
structure SInv (s : St) : Prop where
  cl : s.closing = true
  rd : ∀ i b, s.pc i = .reading b → b = true ∧ s.told i = true
  nd : ∀ i, s.pc i ≠ .dialing ∧ s.pc i ≠ .want

theorem sinv_go {s : St} (h : SInv s) (i : Nat) {p : PC} (h1 : p ≠ .dialing) (h2 : p ≠ .want) (h3 : ∀ b, p ≠ .reading b)
    (f : Nat → Bool) (hf : ∀ j, j ≠ i → f j = s.told j) : SInv { go s i p with told := f } := by
  refine ⟨h.cl, fun j b hj => ?_, fun j => ?_⟩
  · have hj : upd s.pc i p j = .reading b := hj
    by_cases e : j = i
    · subst e; rw [upd_self] at hj; exact absurd hj (h3 b)
    · rw [upd_ne _ _ e] at hj
      have := h.rd j b hj
      exact ⟨this.1, by show f j = true; rw [hf j e]; exact this.2⟩
  · show upd s.pc i p j ≠ .dialing ∧ upd s.pc i p j ≠ .want
    by_cases e : j = i
    · subst e; rw [upd_self]; exact ⟨h1, h2⟩
    · rw [upd_ne _ _ e]; exact h.nd j

theorem sinv_step {s : St} (h : SInv s) (e : Ev) : SInv (step s e) := by
  have hg : ∀ (i : Nat) (p : PC), p ≠ .dialing → p ≠ .want → (∀ b, p ≠ .reading b) → SInv (go s i p) :=
    fun i p h1 h2 h3 => sinv_go h i h1 h2 h3 s.told (fun _ _ => rfl)
  cases e with
  | head i =>
    simp only [step, h.cl, if_true]; split
    · exact hg i _ (by simp) (by simp) (by simp)
    · exact h
  | acquire i p => simp only [step]; rw [if_neg (fun hh => (h.nd i).2 hh.1)]; exact h
  | dialed i r => simp only [step]; rw [if_neg (h.nd i).1]; exact h
  | ready i =>
    simp only [step]; split
    · rename_i hp
      have := (h.rd i false hp).1
      cases this
    · exact h
  | lost i =>
    simp only [step]; split
    · exact sinv_go h i (by simp) (by simp) (by simp) _ (fun j hj => upd_ne _ _ hj)
    · exact h
  | crash i =>
    simp only [step]; split
    · exact sinv_go h i (by simp) (by simp) (by simp) _ (fun j hj => upd_ne _ _ hj)
    · exact h
  | pause i =>
    simp only [step, h.cl, if_true]; split
    · exact hg i _ (by simp) (by simp) (by simp)
    · exact h
  | released i a =>
    simp only [step]; split
    · refine hg i _ ?_ ?_ ?_ <;> split <;> simp
    · exact h
  | api i ok =>
    simp only [step, h.cl, if_true]; split
    · exact hg i _ (by simp) (by simp) (by simp)
    · exact h
  | shutdown => simp only [step, h.cl, if_true]; exact h

theorem sinv_run : ∀ (es : List Ev) {s : St}, SInv s → SInv (run s es)
  | [], _, h => h
  | e :: es, _, h => sinv_run es (sinv_step h e)

/-- **C66**, if `Shutdown` begins when no connection is being set up: from then on no loop begins an attempt, and every
tunnel that is open is one that was told to close. -/
theorem shutdown_tells_all_partial (s : St) (hc : s.closing = false)
    (hq : ∀ i, s.pc i ≠ .dialing ∧ s.pc i ≠ .want ∧ s.pc i ≠ .reading false) (es : List Ev) :
    let s' := run s (.shutdown :: es)
    s'.attempts = s.attempts ∧ ∀ i b, s'.pc i = .reading b → s'.told i = true := by
  have h0 : SInv (step s .shutdown) := by
    simp only [step, hc]
    refine ⟨rfl, fun i b hi => ?_, fun i => ⟨(hq i).1, (hq i).2.1⟩⟩
    have hi : s.pc i = .reading b := hi
    cases b with
    | false => exact absurd hi (hq i).2.2
    | true => exact ⟨rfl, by simp [hi]⟩
  have hat : ∀ (es : List Ev) (q : St), SInv q → (run q es).attempts = q.attempts := by
    intro es
    induction es with
    | nil => intro q _; rfl
    | cons e es ih =>
      intro q hq
      show (run (step q e) es).attempts = _
      rw [ih _ (sinv_step hq e)]
      cases e with
      | acquire i p => simp only [step]; rw [if_neg (fun hh => (hq.nd i).2 hh.1)]
      | dialed i r => simp only [step]; rw [if_neg (hq.nd i).1]
      | head i => simp only [step]; split <;> rfl
      | ready i => simp only [step]; split <;> rfl
      | lost i => simp only [step]; split <;> rfl
      | crash i => simp only [step]; split <;> rfl
      | pause i => simp only [step]; split <;> rfl
      | released i a => simp only [step]; split <;> rfl
      | api i ok =>
        simp only [step]; split
        · split
          · rfl
          · split <;> rfl
        · rfl
      | shutdown => simp only [step]; split <;> rfl
  refine ⟨?_, fun i b hi => ((sinv_run es h0).rd i b hi).2⟩
  show (run (step s .shutdown) es).attempts = _
  rw [hat es _ h0]
  simp only [step, hc]; rfl

/-- A loop whose tunnel ends after `Shutdown` ends, and a loop that sleeps does when it is released. -/
theorem loops_end_after_shutdown (s : St) (hc : s.closing = true) (i : Nat) :
    (∀ b, s.pc i = .reading b → (run s [.lost i, .pause i]).pc i = .done) ∧
    (s.pc i = .asleep → (run s [.released i false, .head i]).pc i = .done ∧ (run s [.released i true, .api i false]).pc i = .done) ∧
    (s.pc i = .head → (run s [.head i]).pc i = .done) := by
  refine ⟨fun b hb => ?_, fun hp => ?_, fun hp => ?_⟩
  · simp [run, step, hb, hc, go, upd]
  · simp [run, step, hp, hc, go, upd]
  · simp [run, step, hp, hc, go, upd]

/-- **C66 is false of the code**: a tunnel that becomes ready after `Shutdown` sent its close signals is never told; it
serves visitors on, and `Shutdown` waits for it. -/
theorem late_tunnel_not_told :
    let s := run init [.head 0, .acquire 0 false, .dialed 0 .ok, .shutdown, .ready 0]
    s.closing = true ∧ s.pc 0 = .reading true ∧ s.told 0 = false := ⟨rfl, rfl, rfl⟩

/-- Even a new attempt can begin after `Shutdown` began. -/
theorem attempt_after_shutdown :
    (run init [.head 0, .shutdown, .acquire 0 false]).attempts 0 = 1 := rfl

/-- Non-vacuity: two tunnels, ready; `Shutdown`. -/
example : let s := run init [.head 0, .acquire 0 false, .dialed 0 .ok, .ready 0]
    s.closing = false ∧ s.pc 0 = .reading true ∧ (step s .shutdown).told 0 = true := ⟨rfl, rfl, rfl⟩

end Verif.Client.Loop
