import Verif.Common
set_option linter.unusedSimpArgs false
set_option linter.unusedVariables false
/-!
# C124, C125: starting and stopping a client
(libcs/client/client.go:417-548 `Start`, 570-595 `Close`, 597-629 `Shutdown`, 700-707 `connectLoop`)

`Start` launches the connection loops, the API server and the TCP forwarder one after another; `Shutdown` and `Close` may be
called by other goroutines at any moment. Every event is one statement (or a few that touch nothing shared) of one of them; all
of them interleave arbitrarily. What a loop does between its first look at `closing` and its end is C65, C66 and C85.
-/
namespace Verif.Client.StartStop

/-- The options `Start` looks at. -/
structure Cfg where
  /-- number of different hosts in `-remote` -/
  hosts : Nat
  /-- `-remoteAPI` is given -/
  useApi : Bool
  /-- `-remoteConnections` -/
  conns : Nat
  /-- `-tcpForwardHostPrefix` is given -/
  forward : Bool

/-- libcs/client/client.go:498-502. -/
def perHost (c : Cfg) : Nat := if c.conns < 1 then 1 else if 10 < c.conns then 10 else c.conns

/-- libcs/client/client.go:472-496, 519-521: the number of loops to launch; without `-remote` the API names one server. -/
def total (c : Cfg) : Nat := (if c.hosts = 0 then 1 else c.hosts) * perHost c

/-- Where `Start` is. -/
inductive SPC where
  /-- not called -/
  | fresh
  /-- looks at `closing` before a query (476-480) -/
  | check
  /-- asks the remote API (481-488) -/
  | query
  /-- makes the idle manager (511) -/
  | mgr
  /-- about to launch loop `k` (522) -/
  | launch (k : Nat)
  /-- loop `k` is launched but not yet counted (523) -/
  | add (k : Nat)
  /-- starts the API server (526) -/
  | api
  /-- opens the forward listener (533) -/
  | listen
  | returned (ok : Bool)
deriving DecidableEq, Repr

/-- A connection loop. -/
inductive LPC where
  | none
  /-- launched; about to look at `closing` for the first time -/
  | fresh
  /-- connecting, connected, or waiting to connect again -/
  | busy
  /-- out of the loop, about to call `Done` (706) -/
  | left
  | gone
deriving DecidableEq, Repr

/-- A call of `Shutdown` or `Close`. -/
inductive CPC where
  | idle
  /-- has set `closing`; tells the tunnels and the peers -/
  | marked
  /-- `Shutdown` only: `waitTunnelsShutdown.Wait()` (622) -/
  | waiting
  /-- closes the API server (624, 590) -/
  | api
  /-- closes the forward listener (625-627, 591-593) -/
  | listener
  | returned
  /-- returned at once because of another call (572, 604) -/
  | refused
deriving DecidableEq, Repr

/-- The idle manager, the API server, the forward listener: not there, at work, closed. -/
inductive Part where
  | absent | up | closed
deriving DecidableEq, Repr

structure St where
  spc : SPC
  loop : Nat → LPC
  /-- the counter of `waitTunnelsShutdown` -/
  wg : Nat
  /-- `Done` without a matching `Add`: nobody recovers, the process dies -/
  panicked : Bool
  closing : Bool
  call : Nat → CPC
  mgr : Part
  api : Part
  listener : Part

def init : St :=
  { spc := .fresh, loop := fun _ => .none, wg := 0, panicked := false, closing := false, call := fun _ => .idle,
    mgr := .absent, api := .absent, listener := .absent }

inductive Ev where
  /-- `Start` goes on; `ok`: what it tries succeeds (the options are valid, the query is answered, the port is free) -/
  | start (ok : Bool)
  /-- loop `i` looks at `closing` before its first round -/
  | look (i : Nat)
  /-- loop `i` has finished a round and looks at `closing` -/
  | round (i : Nat)
  /-- loop `i` calls `Done` -/
  | done (i : Nat)
  /-- call `j` of `Shutdown` (or, if not `graceful`, of `Close`) begins or goes on -/
  | call (j : Nat) (graceful : Bool)
deriving DecidableEq, Repr

def upd {α} (f : Nat → α) (t : Nat) (x : α) : Nat → α := fun y => if y = t then x else f y

def Part.close : Part → Part
  | .absent => .absent
  | _ => .closed

/-- libcs/client/client.go:417-548 `Start`, one statement. Simplified: all checks of the options are one step that succeeds or
not; the API server that was closed before it is started never serves (`http.Server`). -/
def startStep (c : Cfg) (s : St) (ok : Bool) : St :=
  match s.spc with
  | .fresh =>
    if ok = false then { s with spc := .returned false }
    else if c.hosts ≠ 0 then { s with spc := .mgr }
    else if c.useApi then { s with spc := .check }
    else { s with spc := .returned false }
  | .check => if s.closing then { s with spc := .returned false } else { s with spc := .query }
  | .query => { s with spc := if ok then .mgr else .check }
  | .mgr => { s with mgr := .up, spc := .launch 0 }
  | .launch k =>
    if k < total c then { s with loop := upd s.loop k .fresh, spc := .add k } else { s with spc := .api }
  | .add k => { s with wg := s.wg + 1, spc := .launch (k + 1) }
  | .api =>
    { s with api := (if s.api = .closed then .closed else .up), spc := if c.forward then .listen else .returned true }
  | .listen => if ok then { s with listener := .up, spc := .returned true } else { s with spc := .returned false }
  | .returned _ => s

/-- libcs/client/client.go:571-595 `Close`, 603-629 `ShutdownWithoutClosingLogger`, one statement. Simplified: `apiServer.Close`
closes a server that has not been started, too. -/
def callStep (s : St) (j : Nat) (graceful : Bool) : St :=
  match s.call j with
  | .idle =>
    if s.closing then { s with call := upd s.call j .refused }
    else { s with closing := true, call := upd s.call j .marked }
  | .marked => { s with mgr := s.mgr.close, call := upd s.call j (if graceful then .waiting else .api) }
  | .waiting => if s.wg = 0 then { s with call := upd s.call j .api } else s
  | .api => { s with api := .closed, call := upd s.call j .listener }
  | .listener => { s with listener := s.listener.close, call := upd s.call j .returned }
  | .returned => s
  | .refused => s

def step (c : Cfg) (s : St) (e : Ev) : St :=
  if s.panicked then s else
  match e with
  | .start ok => startStep c s ok
  -- libcs/client/client.go:701
  | .look i => if s.loop i = .fresh then { s with loop := upd s.loop i (if s.closing then .left else .busy) } else s
  | .round i => if s.loop i = .busy then { s with loop := upd s.loop i (if s.closing then .left else .busy) } else s
  -- libcs/client/client.go:706
  | .done i =>
    if s.loop i = .left then
      if s.wg = 0 then { s with panicked := true } else { s with wg := s.wg - 1, loop := upd s.loop i .gone }
    else s
  | .call j g => callStep s j g

def run (c : Cfg) (s : St) : List Ev → St
  | [] => s
  | e :: es => run c (step c s e) es

/-! ## Specification -/

/-- Nobody calls `Shutdown` or `Close` in `es`. -/
def NoCall (es : List Ev) : Prop := ∀ e ∈ es, ∀ j g, e ≠ .call j g

/-- `Start` is over. -/
def Over (s : St) : Prop := ∃ ok, s.spc = .returned ok

/-- Loop `i` still runs. -/
def Runs (s : St) (i : Nat) : Prop := s.loop i = .fresh ∨ s.loop i = .busy ∨ s.loop i = .left

/-! ## Proofs -/

theorem upd_self {α} (f : Nat → α) (t : Nat) (x : α) : upd f t x t = x := by simp [upd]
theorem upd_ne {α} (f : Nat → α) {t y : Nat} (x : α) (h : y ≠ t) : upd f t x y = f y := by simp [upd, h]

theorem run_append (c : Cfg) (s : St) (a b : List Ev) : run c s (a ++ b) = run c (run c s a) b := by
  induction a generalizing s with
  | nil => rfl
  | cons e es ih => exact ih (step c s e)

/-- As long as nobody calls `Shutdown` or `Close`. -/
structure Pre (c : Cfg) (m : Nat) (s : St) : Prop where
  cl : s.closing = false
  pn : s.panicked = false
  calls : ∀ j, s.call j = .idle
  lo : ∀ i, i < m → s.loop i = .fresh ∨ s.loop i = .busy
  hi : ∀ i, m ≤ i → s.loop i = .none
  wg : s.wg = match s.spc with | .add k => m - 1 | _ => m
  le : (∀ k, s.spc = .launch k → m = k ∧ k ≤ total c) ∧ (∀ k, s.spc = .add k → m = k + 1 ∧ k < total c) ∧
    (s.spc = .api ∨ s.spc = .listen ∨ s.spc = .returned true → m = total c) ∧
    (s.spc = .fresh ∨ s.spc = .check ∨ s.spc = .query ∨ s.spc = .mgr → m = 0) ∧
    (s.spc = .returned false → m = 0 ∧ s.api = .absent ∨ m = total c ∧ s.api = .up ∧ c.forward = true)
  ap : (s.spc = .listen ∨ s.spc = .returned true → s.api = .up) ∧
    (s.spc ≠ .listen → s.spc ≠ .returned true → s.spc ≠ .returned false → s.api = .absent)
  ls : (s.spc = .returned true → s.listener = if c.forward then .up else .absent) ∧
    (s.spc ≠ .returned true → s.listener = .absent)
  li : s.spc = .listen → c.forward = true

theorem pre_init (c : Cfg) : Pre c 0 init := by
  constructor <;> simp [init]

theorem pre_step {c : Cfg} {m : Nat} {s : St} (h : Pre c m s) (e : Ev) (he : ∀ j g, e ≠ .call j g) :
    ∃ m', Pre c m' (step c s e) := by
  obtain ⟨cl, pn, calls, lo, hi, wg, le, ap, ls, li⟩ := h
  have loopcase : ∀ (i : Nat) (p : LPC), (s.loop i = .fresh ∨ s.loop i = .busy) → (p = .fresh ∨ p = .busy) →
      Pre c m { s with loop := upd s.loop i p } := by
    intro i p hi' hp
    have him : i < m := by
      rcases Nat.lt_or_ge i m with h | h
      · exact h
      · have := hi i h; rw [this] at hi'; rcases hi' with h | h <;> cases h
    refine ⟨cl, pn, calls, ?_, ?_, wg, le, ap, ls, li⟩
    · intro k hk
      show upd s.loop i p k = _ ∨ upd s.loop i p k = _
      by_cases e : k = i
      · subst e; rw [upd_self]; exact hp
      · rw [upd_ne _ _ e]; exact lo k hk
    · intro k hk
      show upd s.loop i p k = _
      rw [upd_ne _ _ (by omega)]; exact hi k hk
  cases e with
  | call j g => exact absurd rfl (he j g)
  | look i =>
    have e1 : step c s (.look i) = if s.loop i = .fresh then { s with loop := upd s.loop i .busy } else s := by
      simp only [step, pn, cl, Bool.false_eq_true, if_false]
    rw [e1]
    split
    · rename_i h; exact ⟨m, loopcase i _ (Or.inl h) (Or.inr rfl)⟩
    · exact ⟨m, cl, pn, calls, lo, hi, wg, le, ap, ls, li⟩
  | round i =>
    have e1 : step c s (.round i) = if s.loop i = .busy then { s with loop := upd s.loop i .busy } else s := by
      simp only [step, pn, cl, Bool.false_eq_true, if_false]
    rw [e1]
    split
    · rename_i h; exact ⟨m, loopcase i _ (Or.inr h) (Or.inr rfl)⟩
    · exact ⟨m, cl, pn, calls, lo, hi, wg, le, ap, ls, li⟩
  | done i =>
    simp only [step, pn, Bool.false_eq_true, if_false]
    rw [if_neg]
    · exact ⟨m, cl, pn, calls, lo, hi, wg, le, ap, ls, li⟩
    · intro hl
      rcases Nat.lt_or_ge i m with h | h
      · rcases lo i h with h' | h' <;> rw [hl] at h' <;> cases h'
      · rw [hi i h] at hl; cases hl
  | start ok =>
    obtain ⟨l1, l2, l3, l4, l5⟩ := le
    obtain ⟨a1, a2⟩ := ap
    obtain ⟨b1, b2⟩ := ls
    simp only [step, pn, Bool.false_eq_true, if_false]
    cases hs : s.spc with
    | fresh =>
      have hm := l4 (Or.inl hs); subst hm
      simp only [startStep, hs]
      simp only [hs] at wg
      have ha := a2 (by simp [hs]) (by simp [hs]) (by simp [hs])
      have hb := b2 (by simp [hs])
      refine ⟨0, ?_⟩
      split
      · constructor <;> simp_all
      · split
        · constructor <;> simp_all
        · split <;> constructor <;> simp_all
    | check =>
      have hm := l4 (Or.inr (Or.inl hs)); subst hm
      simp only [startStep, hs, cl, Bool.false_eq_true, if_false]
      simp only [hs] at wg
      have ha := a2 (by simp [hs]) (by simp [hs]) (by simp [hs])
      have hb := b2 (by simp [hs])
      refine ⟨0, ?_⟩
      constructor <;> simp_all
    | query =>
      have hm := l4 (Or.inr (Or.inr (Or.inl hs))); subst hm
      simp only [startStep, hs]
      simp only [hs] at wg
      have ha := a2 (by simp [hs]) (by simp [hs]) (by simp [hs])
      have hb := b2 (by simp [hs])
      refine ⟨0, ?_⟩
      cases ok <;> constructor <;> simp_all
    | mgr =>
      have hm := l4 (Or.inr (Or.inr (Or.inr hs))); subst hm
      simp only [startStep, hs]
      simp only [hs] at wg
      have ha := a2 (by simp [hs]) (by simp [hs]) (by simp [hs])
      have hb := b2 (by simp [hs])
      refine ⟨0, ?_⟩
      constructor <;> simp_all
    | launch k =>
      obtain ⟨hm, hk⟩ := l1 k hs; subst hm
      simp only [startStep, hs]
      simp only [hs] at wg
      have ha := a2 (by simp [hs]) (by simp [hs]) (by simp [hs])
      have hb := b2 (by simp [hs])
      split
      · rename_i hlt
        refine ⟨m + 1, cl, pn, calls, ?_, ?_, ?_, ?_, ?_, ?_, ?_⟩
        · intro i hi'
          show upd s.loop m .fresh i = _ ∨ upd s.loop m .fresh i = _
          by_cases e : i = m
          · subst e; left; exact upd_self ..
          · rw [upd_ne _ _ e]; exact lo i (by omega)
        · intro i hi'
          show upd s.loop m .fresh i = _
          rw [upd_ne _ _ (by omega)]; exact hi i (by omega)
        · simpa using wg
        · simp [hlt]
        · simp [ha]
        · simp [hb]
        · simp
      · have : m = total c := by omega
        refine ⟨m, cl, pn, calls, lo, hi, wg, ?_, ?_, ?_, ?_⟩
        · simp [this]
        · simp [ha]
        · simp [hb]
        · simp
    | add k =>
      obtain ⟨hm, hk⟩ := l2 k hs; subst hm
      simp only [startStep, hs]
      simp only [hs] at wg
      have ha := a2 (by simp [hs]) (by simp [hs]) (by simp [hs])
      have hb := b2 (by simp [hs])
      refine ⟨k + 1, cl, pn, calls, lo, hi, ?_, ?_, ?_, ?_, ?_⟩
      · show s.wg + 1 = k + 1
        omega
      · simp; omega
      · simp [ha]
      · simp [hb]
      · simp
    | api =>
      have hm := l3 (Or.inl hs)
      simp only [startStep, hs]
      simp only [hs] at wg
      have ha := a2 (by simp [hs]) (by simp [hs]) (by simp [hs])
      have hb := b2 (by simp [hs])
      have e1 : (if s.api = Part.closed then Part.closed else Part.up) = Part.up := by simp [ha]
      rw [e1]
      cases hf : c.forward with
      | true =>
        refine ⟨m, cl, pn, calls, lo, hi, wg, ?_, ?_, ?_, ?_⟩ <;> simp [hm, hf, hb]
      | false =>
        refine ⟨m, cl, pn, calls, lo, hi, wg, ?_, ?_, ?_, ?_⟩ <;> simp [hm, hf, hb]
    | listen =>
      have hm := l3 (Or.inr (Or.inl hs))
      simp only [startStep, hs]
      simp only [hs] at wg
      have ha := a1 (Or.inl hs)
      have hb := b2 (by simp [hs])
      have hf := li hs
      cases ok with
      | true =>
        refine ⟨m, cl, pn, calls, lo, hi, wg, ?_, ?_, ?_, ?_⟩ <;> simp [hm, hf, hb, ha]
      | false =>
        refine ⟨m, cl, pn, calls, lo, hi, wg, ?_, ?_, ?_, ?_⟩ <;> simp [hm, hf, hb, ha]
    | returned ok' =>
      simp only [startStep, hs]
      exact ⟨m, cl, pn, calls, lo, hi, wg, ⟨l1, l2, l3, l4, l5⟩, ⟨a1, a2⟩, ⟨b1, b2⟩, li⟩

theorem pre_run {c : Cfg} : ∀ (es : List Ev) {m : Nat} {s : St}, Pre c m s → NoCall es → ∃ m', Pre c m' (run c s es)
  | [], m, _, h, _ => ⟨m, h⟩
  | e :: es, _, _, h, hn => by
    obtain ⟨m', h'⟩ := pre_step h e (hn e List.mem_cons_self)
    exact pre_run es h' (fun x hx => hn x (List.mem_cons_of_mem _ hx))

/-- **C124.** When `Start` has returned without an error, and nobody has called `Shutdown` or `Close`, exactly the loops that
the options ask for are running (the number of hosts times `-remoteConnections` limited to 1..10), the API server serves and
the forward listener is open exactly if forwarding was asked for, whatever the loops have been doing meanwhile. -/
theorem started_runs_everything (c : Cfg) (es : List Ev) (hn : NoCall es) (hs : (run c init es).spc = .returned true) :
    (∀ i, Runs (run c init es) i ↔ i < (if c.hosts = 0 then 1 else c.hosts) * min 10 (max 1 c.conns)) ∧
    (run c init es).api = .up ∧ ((run c init es).listener = .up ↔ c.forward = true) ∧
    (run c init es).panicked = false := by
  obtain ⟨m, h⟩ := pre_run es (pre_init c) hn
  have hm := h.le.2.2.1 (Or.inr (Or.inr hs))
  have ht : total c = (if c.hosts = 0 then 1 else c.hosts) * min 10 (max 1 c.conns) := by
    unfold total perHost
    congr 1
    split
    · omega
    · split <;> omega
  refine ⟨?_, h.ap.1 (Or.inr hs), ?_, h.pn⟩
  · intro i
    rw [← ht, ← hm]
    constructor
    · intro hr
      rcases Nat.lt_or_ge i m with h1 | h1
      · exact h1
      · have := h.hi i h1
        unfold Runs at hr
        rw [this] at hr
        rcases hr with h | h | h <;> cases h
    · intro hi
      rcases h.lo i hi with h1 | h1
      · exact Or.inl h1
      · exact Or.inr (Or.inl h1)
  · rw [h.ls.1 hs]
    cases c.forward <;> simp

/-- **C124, the part that holds.** When `Start` has returned an error and no forwarding was asked for, nothing it could have
started is running: no loop, no API server, no listener.

Missing: with forwarding the claim is false, see `failed_start_leaves_the_client_running`. -/
theorem failed_start_leaves_nothing_partial (c : Cfg) (es : List Ev) (hn : NoCall es) (hf : c.forward = false)
    (hs : (run c init es).spc = .returned false) :
    (∀ i, ¬ Runs (run c init es) i) ∧ (run c init es).api = .absent ∧ (run c init es).listener = .absent := by
  obtain ⟨m, h⟩ := pre_run es (pre_init c) hn
  rcases h.le.2.2.2.2 hs with ⟨hm, ha⟩ | ⟨_, _, h1⟩
  · refine ⟨?_, ha, h.ls.2 (by simp [hs])⟩
    intro i hr
    unfold Runs at hr
    rw [h.hi i (by omega)] at hr
    rcases hr with h | h | h <;> cases h
  · rw [hf] at h1; cases h1

/-! ### After `Start` -/

/-- The loops below `m` that still run. -/
def live (f : Nat → LPC) : Nat → Nat
  | 0 => 0
  | m + 1 => live f m + (if f m = .none ∨ f m = .gone then 0 else 1)

theorem live_congr {f g : Nat → LPC} : ∀ {m : Nat}, (∀ i, i < m → (f i = .none ∨ f i = .gone ↔ g i = .none ∨ g i = .gone)) →
    live f m = live g m
  | 0, _ => rfl
  | m + 1, h => by
    unfold live
    rw [live_congr (m := m) (fun i hi => h i (by omega))]
    congr 1
    by_cases h1 : f m = .none ∨ f m = .gone
    · rw [if_pos h1, if_pos ((h m (by omega)).mp h1)]
    · rw [if_neg h1, if_neg (fun h2 => h1 ((h m (by omega)).mpr h2))]

theorem live_zero {f : Nat → LPC} : ∀ {m : Nat}, live f m = 0 → ∀ i, i < m → f i = .none ∨ f i = .gone
  | m + 1, h, i, hi => by
    unfold live at h
    by_cases e : i = m
    · subst e
      by_cases h1 : f i = .none ∨ f i = .gone
      · exact h1
      · rw [if_neg h1] at h; omega
    · exact live_zero (m := m) (by omega) i (by omega)

theorem live_gone {f : Nat → LPC} {i : Nat} (hf : ¬ (f i = .none ∨ f i = .gone)) :
    ∀ {m : Nat}, i < m → live f m = live (upd f i .gone) m + 1
  | m + 1, hi => by
    unfold live
    by_cases e : i = m
    · subst e
      rw [if_neg hf, upd_self]
      have : live f i = live (upd f i .gone) i :=
        live_congr (fun k hk => by rw [upd_ne _ _ (by omega)])
      simp [this]
    · have := live_gone hf (m := m) (by omega)
      rw [this, upd_ne _ _ (by omega)]
      omega

/-- From the moment `Start` has returned. -/
structure Post (m : Nat) (s : St) : Prop where
  ov : Over s
  pn : s.panicked = false
  hi : ∀ i, m ≤ i → s.loop i = .none
  wg : s.wg = live s.loop m

theorem post_of_pre {c : Cfg} {m : Nat} {s : St} (h : Pre c m s) (ho : Over s) : Post m s := by
  refine ⟨ho, h.pn, h.hi, ?_⟩
  obtain ⟨ok, ho⟩ := ho
  have hw := h.wg
  simp only [ho] at hw
  have key : ∀ k, k ≤ m → live s.loop k = k := by
    intro k
    induction k with
    | zero => intro _; rfl
    | succ k ih =>
      intro hk
      unfold live
      rw [ih (by omega)]
      rcases h.lo k (by omega) with h1 | h1 <;> simp [h1]
  rw [key m (Nat.le_refl m)]; exact hw

theorem post_step {c : Cfg} {m : Nat} {s : St} (h : Post m s) (e : Ev) : Post m (step c s e) := by
  obtain ⟨⟨ok, ov⟩, pn, hi, wg⟩ := h
  have loopcase : ∀ (i : Nat) (p : LPC), ¬ (s.loop i = .none ∨ s.loop i = .gone) → ¬ (p = .none ∨ p = .gone) →
      Post m { s with loop := upd s.loop i p } := by
    intro i p h1 h2
    have him : i < m := by
      rcases Nat.lt_or_ge i m with h | h
      · exact h
      · exact absurd (Or.inl (hi i h)) h1
    refine ⟨⟨ok, ov⟩, pn, ?_, ?_⟩
    · intro k hk
      show upd s.loop i p k = _
      rw [upd_ne _ _ (by omega)]; exact hi k hk
    · show s.wg = live (upd s.loop i p) m
      rw [wg]
      refine live_congr ?_
      intro k hk
      by_cases e : k = i
      · subst e; rw [upd_self]
        constructor
        · intro h; exact absurd h h1
        · intro h; exact absurd h h2
      · rw [upd_ne _ _ e]
  unfold step
  rw [if_neg (by simp [pn])]
  cases e with
  | start ok' =>
    simp only [startStep, ov]
    exact ⟨⟨ok, ov⟩, pn, hi, wg⟩
  | look i =>
    dsimp only; split
    · rename_i hl
      refine loopcase i _ (by simp [hl]) ?_
      split <;> simp
    · exact ⟨⟨ok, ov⟩, pn, hi, wg⟩
  | round i =>
    dsimp only; split
    · rename_i hl
      refine loopcase i _ (by simp [hl]) ?_
      split <;> simp
    · exact ⟨⟨ok, ov⟩, pn, hi, wg⟩
  | done i =>
    dsimp only; split
    · rename_i hl
      have him : i < m := by
        rcases Nat.lt_or_ge i m with h | h
        · exact h
        · rw [hi i h] at hl; cases hl
      have h1 := live_gone (f := s.loop) (i := i) (by simp [hl]) him
      rw [if_neg (by omega)]
      refine ⟨⟨ok, ov⟩, pn, ?_, ?_⟩
      · intro k hk
        show upd s.loop i .gone k = _
        rw [upd_ne _ _ (by omega)]; exact hi k hk
      · show s.wg - 1 = live (upd s.loop i .gone) m
        omega
    · exact ⟨⟨ok, ov⟩, pn, hi, wg⟩
  | call j g =>
    dsimp only
    unfold callStep
    split <;> try split
    all_goals exact ⟨⟨ok, ov⟩, pn, hi, wg⟩

theorem post_run {c : Cfg} {m : Nat} : ∀ (es : List Ev) {s : St}, Post m s → Post m (run c s es)
  | [], _, h => h
  | e :: es, _, h => post_run es (post_step h e)

/-- What a call has achieved by the place where it is. `g`: the call is a `Shutdown`. -/
structure CallInv (g : Bool) (j : Nat) (s : St) : Prop where
  ck : s.call j ≠ .idle → s.closing = true
  loops : g = true → s.call j = .api ∨ s.call j = .listener ∨ s.call j = .returned → s.wg = 0
  nw : g = false → s.call j ≠ .waiting
  mgr : s.call j = .waiting ∨ s.call j = .api ∨ s.call j = .listener ∨ s.call j = .returned → s.mgr ≠ .up
  api : s.call j = .listener ∨ s.call j = .returned → s.api = .closed
  ls : s.call j = .returned → s.listener ≠ .up

theorem Part.close_ne (p : Part) : p.close ≠ .up := by cases p <;> simp [Part.close]

theorem callInv_step {c : Cfg} {g : Bool} {j m : Nat} {s : St} (hp : Post m s) (h : CallInv g j s) (e : Ev)
    (he : ∀ g', e = .call j g' → g' = g) : CallInv g j (step c s e) := by
  obtain ⟨⟨ok, ov⟩, pn, hi, wg⟩ := hp
  obtain ⟨ck, loops, nw, mgr, api, ls⟩ := h
  unfold step
  rw [if_neg (by simp [pn])]
  cases e with
  | start ok' =>
    simp only [startStep, ov]
    exact ⟨ck, loops, nw, mgr, api, ls⟩
  | look i => dsimp only; split <;> exact ⟨ck, loops, nw, mgr, api, ls⟩
  | round i => dsimp only; split <;> exact ⟨ck, loops, nw, mgr, api, ls⟩
  | done i =>
    dsimp only; split
    · split
      · exact ⟨ck, loops, nw, mgr, api, ls⟩
      · refine ⟨ck, ?_, nw, mgr, api, ls⟩
        intro hg hc
        have := loops hg hc
        show s.wg - 1 = 0
        omega
    · exact ⟨ck, loops, nw, mgr, api, ls⟩
  | call j' g' =>
    dsimp only
    by_cases e : j' = j
    · subst e
      have hg := he g' rfl
      subst hg
      unfold callStep
      cases hc : s.call j' with
      | idle =>
        dsimp only; split
        · constructor <;> simp [upd_self]; assumption
        · constructor <;> simp [upd_self]
      | marked =>
        dsimp only
        have := ck (by simp [hc])
        cases g' with
        | true => constructor <;> simp [upd_self, Part.close_ne, this]
        | false => constructor <;> simp [upd_self, Part.close_ne, this]
      | waiting =>
        dsimp only; split
        · have := mgr (Or.inl hc)
          have := ck (by simp [hc])
          constructor <;> simp_all [upd_self]
        · exact ⟨ck, loops, nw, mgr, api, ls⟩
      | api =>
        have h1 := mgr (Or.inr (Or.inl hc))
        have h2 := ck (by simp [hc])
        have h3 := fun hg => loops hg (Or.inl hc)
        constructor <;> simp [upd_self, h1, h2]
        exact h3
      | listener =>
        have h1 := mgr (Or.inr (Or.inr (Or.inl hc)))
        have h2 := ck (by simp [hc])
        have h3 := fun hg => loops hg (Or.inr (Or.inl hc))
        have h4 := api (Or.inl hc)
        constructor <;> simp [upd_self, h1, h2, h4, Part.close_ne]
        exact h3
      | returned => exact ⟨ck, loops, nw, mgr, api, ls⟩
      | refused => exact ⟨ck, loops, nw, mgr, api, ls⟩
    · have hne : ∀ p : CPC, upd s.call j' p j = s.call j := fun p => upd_ne _ _ (fun h => e h.symm)
      unfold callStep
      split
      · split
        · constructor <;> dsimp only <;> rw [hne] <;> assumption
        · constructor <;> dsimp only <;> rw [hne] <;> first | assumption | simp
      · constructor <;> dsimp only <;> rw [hne] <;> first | assumption | (intro _; exact Part.close_ne _)
      · split
        · constructor <;> dsimp only <;> rw [hne] <;> assumption
        · exact ⟨ck, loops, nw, mgr, api, ls⟩
      · constructor <;> dsimp only <;> rw [hne] <;> first | assumption | simp
      · constructor <;> dsimp only <;> rw [hne] <;> first | assumption | (intro _; exact Part.close_ne _)
      · exact ⟨ck, loops, nw, mgr, api, ls⟩
      · exact ⟨ck, loops, nw, mgr, api, ls⟩

theorem callInv_run {c : Cfg} {g : Bool} {j m : Nat} : ∀ (es : List Ev) {s : St}, Post m s → CallInv g j s →
    (∀ e ∈ es, ∀ g', e = .call j g' → g' = g) → CallInv g j (run c s es)
  | [], _, _, h, _ => h
  | e :: es, _, hp, h, he =>
    callInv_run es (post_step hp e) (callInv_step hp h e (he e List.mem_cons_self))
      (fun x hx => he x (List.mem_cons_of_mem _ hx))

theorem callInv_pre {c : Cfg} {m : Nat} {s : St} (h : Pre c m s) (g : Bool) (j : Nat) : CallInv g j s := by
  have := h.calls j
  constructor <;> simp [this]

/-- **C125.** If nobody calls `Shutdown` or `Close` before `Start` has returned, then, whatever happens afterwards, in any
order: the process does not die of a wait group that goes below zero; when a call of `Shutdown` that was the first to stop the
client has returned, no loop runs any more; and when that call or such a call of `Close` has returned, the idle manager does not
hold back anybody, the API server is closed and the forward listener is not open. -/
theorem shutdown_after_start (c : Cfg) (es es' : List Ev) (hn : NoCall es) (ho : Over (run c init es)) (j : Nat) (g : Bool)
    (hg : ∀ e ∈ es', ∀ g', e = .call j g' → g' = g) :
    (run c init (es ++ es')).panicked = false ∧
    ((run c init (es ++ es')).call j = .returned →
      (g = true → ∀ i, ¬ Runs (run c init (es ++ es')) i) ∧ (run c init (es ++ es')).mgr ≠ .up ∧
      (run c init (es ++ es')).api = .closed ∧ (run c init (es ++ es')).listener ≠ .up) := by
  obtain ⟨m, h⟩ := pre_run es (pre_init c) hn
  rw [run_append]
  have hp := post_of_pre h ho
  have hp' := post_run (c := c) es' hp
  have hc := callInv_run (c := c) es' hp (callInv_pre h g j) hg
  refine ⟨hp'.pn, fun hr => ⟨?_, hc.mgr (by simp [hr]), hc.api (by simp [hr]), hc.ls hr⟩⟩
  intro hgt i hrun
  have hz : live (run c (run c init es) es').loop m = 0 := by
    rw [← hp'.wg]; exact hc.loops hgt (by simp [hr])
  have : (run c (run c init es) es').loop i = .none ∨ (run c (run c init es) es').loop i = .gone := by
    rcases Nat.lt_or_ge i m with h1 | h1
    · exact live_zero hz i h1
    · exact Or.inl (hp'.hi i h1)
  unfold Runs at hrun
  rcases this with h1 | h1 <;> rw [h1] at hrun <;> rcases hrun with h | h | h <;> cases h

/-- **C125.** Two calls never both do the work: at most one call gets past `closing`. -/
theorem one_call_does_the_work (c : Cfg) (es : List Ev) (i j : Nat)
    (hi : (run c init es).call i ≠ .idle ∧ (run c init es).call i ≠ .refused)
    (hj : (run c init es).call j ≠ .idle ∧ (run c init es).call j ≠ .refused) : i = j := by
  have key : ∀ (es : List Ev) (s : St), (s.closing = false → ∀ k, s.call k = .idle) →
      (∀ a b, s.call a ≠ .idle ∧ s.call a ≠ .refused → s.call b ≠ .idle ∧ s.call b ≠ .refused → a = b) →
      ∀ a b, (run c s es).call a ≠ .idle ∧ (run c s es).call a ≠ .refused →
        (run c s es).call b ≠ .idle ∧ (run c s es).call b ≠ .refused → a = b := by
    intro es
    induction es with
    | nil => intro s _ h; exact h
    | cons e es ih =>
      intro s h0 h
      refine ih (step c s e) ?_ ?_
      · unfold step
        split
        · exact h0
        · cases e with
          | start ok =>
            dsimp only; unfold startStep
            split <;> (try split) <;> (try split) <;> (try split) <;> exact h0
          | look k => dsimp only; split <;> exact h0
          | round k => dsimp only; split <;> exact h0
          | done k => dsimp only; split <;> (try split) <;> exact h0
          | call k g =>
            dsimp only; unfold callStep
            split <;> rename_i hk
            · split
              · rename_i hc; intro h1; rw [hc] at h1; cases h1
              · intro h1; cases h1
            all_goals (try split)
            all_goals (intro h1; have := h0 h1 k; rw [hk] at this; cases this)
      · unfold step
        split
        · exact h
        · cases e with
          | start ok =>
            dsimp only; unfold startStep
            split <;> (try split) <;> (try split) <;> (try split) <;> exact h
          | look k => dsimp only; split <;> exact h
          | round k => dsimp only; split <;> exact h
          | done k => dsimp only; split <;> (try split) <;> exact h
          | call k g =>
            dsimp only
            have keep : ∀ (p : CPC), s.call k ≠ .idle → s.call k ≠ .refused → ∀ a b,
                upd s.call k p a ≠ .idle ∧ upd s.call k p a ≠ .refused →
                upd s.call k p b ≠ .idle ∧ upd s.call k p b ≠ .refused → a = b := by
              intro p h1 h2 a b ha hb
              have tr : ∀ x, upd s.call k p x ≠ .idle ∧ upd s.call k p x ≠ .refused → s.call x ≠ .idle ∧ s.call x ≠ .refused := by
                intro x hx
                by_cases e : x = k
                · subst e; exact ⟨h1, h2⟩
                · rw [upd_ne _ _ e] at hx; exact hx
              exact h a b (tr a ha) (tr b hb)
            unfold callStep
            cases hk : s.call k with
            | idle =>
              dsimp only; split
              · intro a b ha hb
                have tr : ∀ x, upd s.call k .refused x ≠ .idle ∧ upd s.call k .refused x ≠ .refused →
                    s.call x ≠ .idle ∧ s.call x ≠ .refused := by
                  intro x hx
                  by_cases e : x = k
                  · subst e; rw [upd_self] at hx; exact absurd rfl hx.2
                  · rw [upd_ne _ _ e] at hx; exact hx
                exact h a b (tr a ha) (tr b hb)
              · rename_i hc
                have hall := h0 (by simpa using hc)
                intro a b ha hb
                have tr : ∀ x, upd s.call k .marked x ≠ .idle ∧ upd s.call k .marked x ≠ .refused → x = k := by
                  intro x hx
                  by_cases e : x = k
                  · exact e
                  · rw [upd_ne _ _ e] at hx; exact absurd (hall x) hx.1
                exact (tr a ha).trans (tr b hb).symm
            | marked => exact keep _ (by simp [hk]) (by simp [hk])
            | waiting =>
              dsimp only; split
              · exact keep _ (by simp [hk]) (by simp [hk])
              · exact h
            | api => exact keep _ (by simp [hk]) (by simp [hk])
            | listener => exact keep _ (by simp [hk]) (by simp [hk])
            | returned => exact h
            | refused => exact h
  exact key es init (by simp [init]) (by simp [init]) i j hi hj

/-- Once `closing` is set, a loop that is not connecting or connected does not become so. -/
theorem no_loop_begins_after_closing (c : Cfg) (s : St) (hc : s.closing = true) :
    ∀ (es : List Ev) (i : Nat), s.loop i ≠ .busy → (run c s es).loop i ≠ .busy := by
  intro es
  induction es generalizing s with
  | nil => intro i h; exact h
  | cons e es ih =>
    intro i h
    have key : (step c s e).closing = true ∧ (step c s e).loop i ≠ .busy := by
      unfold step
      split
      · exact ⟨hc, h⟩
      · have lk : ∀ k p, p ≠ LPC.busy → upd s.loop k p i ≠ .busy := by
          intro k p hp
          by_cases e : i = k
          · subst e; rw [upd_self]; exact hp
          · rw [upd_ne _ _ e]; exact h
        cases e with
        | start ok =>
          dsimp only; unfold startStep
          split <;> (try split) <;> (try split) <;> (try split)
          all_goals first | exact ⟨hc, h⟩ | exact ⟨hc, lk _ _ (by simp)⟩
        | look k => dsimp only; split
                    · exact ⟨hc, lk _ _ (by simp [hc])⟩
                    · exact ⟨hc, h⟩
        | round k => dsimp only; split
                     · exact ⟨hc, lk _ _ (by simp [hc])⟩
                     · exact ⟨hc, h⟩
        | done k =>
          dsimp only; split <;> (try split)
          all_goals first | exact ⟨hc, h⟩ | exact ⟨hc, lk _ _ (by simp)⟩
        | call k g =>
          dsimp only; unfold callStep
          split <;> (try split)
          all_goals first | exact ⟨hc, h⟩ | exact ⟨rfl, h⟩
    exact ih (step c s e) key.1 i key.2

/-- **C125.** A loop that is launched after `Shutdown` or `Close` has begun never connects. -/
theorem late_loops_never_connect (c : Cfg) (es es' : List Ev) (hc : (run c init es).closing = true) (i : Nat)
    (hi : (run c init es).loop i = .none) : (run c init (es ++ es')).loop i ≠ .busy := by
  rw [run_append]
  exact no_loop_begins_after_closing c _ hc es' i (by simp [hi])

/-! ### Concrete runs -/

/-- Two hosts, two loops each, with forwarding. -/
def two : Cfg := { hosts := 2, useApi := false, conns := 2, forward := true }

def startAll : List Ev := List.replicate 13 (.start true)

example : (run two init startAll).spc = .returned true ∧ NoCall startAll ∧ Over (run two init startAll) := by
  refine ⟨by decide, ?_, true, by decide⟩
  intro e he j g
  rw [List.eq_of_mem_replicate he]
  intro h; cases h

/-- Neither `-remote` nor `-remoteAPI`: an error with nothing started. -/
example : let c : Cfg := { hosts := 0, useApi := false, conns := 1, forward := false }
    (run c init [.start true]).spc = .returned false := by decide

/-- A graceful stop of it: the call waits for all four loops. -/
def stopAll : List Ev :=
  [.look 0, .look 1, .call 0 true, .call 0 true, .call 0 true, .look 2, .look 3, .round 0, .round 1, .done 0, .done 1, .done 2,
   .call 0 true, .done 3, .call 0 true, .call 0 true, .call 0 true]

example : (run two init (startAll ++ stopAll)).call 0 = .returned ∧ (run two init (startAll ++ stopAll)).wg = 0 ∧
    (run two init (startAll ++ stopAll)).listener = .closed := by decide

/-- **C124 is violated**: the port of the forwarder is taken, `Start` returns an error, and the client stays connected with all
its loops and the API server. -/
theorem failed_start_leaves_the_client_running :
    ∃ es, NoCall es ∧ (run two init es).spc = .returned false ∧ (∀ i, i < 4 → (run two init es).loop i = .busy) ∧
      (run two init es).api = .up := by
  refine ⟨List.replicate 12 (.start true) ++ [.look 0, .look 1, .look 2, .look 3, .start false], ?_, by decide, by decide,
    by decide⟩
  intro e he j g
  rw [List.mem_append] at he
  rcases he with he | he
  · rw [List.eq_of_mem_replicate he]; intro h; cases h
  · simp at he
    rcases he with rfl | rfl | rfl | rfl | rfl <;> intro h <;> cases h

def viaApi : Cfg := { hosts := 0, useApi := true, conns := 1, forward := true }

/-- **C125 is violated if `Shutdown` is called while `Start` runs** (here while the remote API is being asked): the loop that is
launched leaves at once and calls `Done` before `Start` has called `Add`, which nobody recovers. -/
theorem early_shutdown_kills_the_process :
    ∃ es, (run viaApi init es).panicked = true ∧ ∃ a b, es = a ++ .call 0 true :: b ∧ (run viaApi init a).spc = .query :=
  ⟨[.start true, .start true] ++ .call 0 true :: [.start true, .start true, .start true, .look 0, .done 0], by decide,
    [.start true, .start true], _, rfl, by decide⟩

/-- And if the process survives that, the forward listener is opened after `Shutdown` has returned, and stays open. -/
theorem early_shutdown_leaves_the_listener :
    ∃ es, (run viaApi init es).panicked = false ∧ (run viaApi init es).call 0 = .returned ∧
      (run viaApi init es).spc = .returned true ∧ (run viaApi init es).listener = .up :=
  ⟨[.start true, .start true, .call 0 true, .call 0 true, .call 0 true, .call 0 true, .call 0 true, .start true, .start true,
    .start true, .start true, .look 0, .done 0, .start true, .start true, .start true], by decide⟩

/-- `Shutdown` can return although a tunnel is up: its loop was launched but not counted. -/
theorem early_shutdown_does_not_wait :
    ∃ es, (run viaApi init es).panicked = false ∧ (run viaApi init es).call 0 = .returned ∧
      (run viaApi init es).loop 0 = .busy :=
  ⟨[.start true, .start true, .start true, .start true, .start true, .look 0, .call 0 true, .call 0 true, .call 0 true,
    .call 0 true, .call 0 true], by decide⟩

/-- A second call of `Shutdown` returns at once, although the loops still run. -/
theorem second_shutdown_does_not_wait :
    ∃ es, (run two init (startAll ++ es)).call 1 = .refused ∧ (run two init (startAll ++ es)).loop 0 = .busy :=
  ⟨[.look 0, .call 0 true, .call 1 true], by decide⟩

/-! ## What success of `Start` means when `Shutdown` is called meanwhile -/

/-- The statement that `Start` is about to execute comes after the launch of the first `n` loops. -/
structure Lau (c : Cfg) (s : St) : Prop where
  la : ∀ k, s.spc = .launch k → k ≤ total c ∧ ∀ i, i < k → s.loop i ≠ .none
  ad : ∀ k, s.spc = .add k → k < total c ∧ ∀ i, i ≤ k → s.loop i ≠ .none
  al : s.spc = .api ∨ s.spc = .listen ∨ s.spc = .returned true → ∀ i, i < total c → s.loop i ≠ .none
  mg : (∃ k, s.spc = .launch k ∨ s.spc = .add k) ∨ s.spc = .api ∨ s.spc = .listen ∨ s.spc = .returned true → s.mgr ≠ .absent
  ap : s.spc = .listen ∨ s.spc = .returned true → s.api ≠ .absent
  li : s.spc = .returned true → c.forward = true → s.listener ≠ .absent

theorem lau_congr {c : Cfg} {s s' : St} (h : Lau c s) (h1 : s'.spc = s.spc) (h2 : ∀ i, s.loop i ≠ .none → s'.loop i ≠ .none)
    (h3 : s.mgr ≠ .absent → s'.mgr ≠ .absent) (h4 : s.api ≠ .absent → s'.api ≠ .absent)
    (h5 : s.listener ≠ .absent → s'.listener ≠ .absent) : Lau c s' := by
  constructor
  · intro k hk; rw [h1] at hk; exact ⟨(h.la k hk).1, fun i hi => h2 i ((h.la k hk).2 i hi)⟩
  · intro k hk; rw [h1] at hk; exact ⟨(h.ad k hk).1, fun i hi => h2 i ((h.ad k hk).2 i hi)⟩
  · intro hk i hi; rw [h1] at hk; exact h2 i (h.al hk i hi)
  · intro hk; simp only [h1] at hk; exact h3 (h.mg hk)
  · intro hk; rw [h1] at hk; exact h4 (h.ap hk)
  · intro hk hf; rw [h1] at hk; exact h5 (h.li hk hf)

theorem Part.close_absent {p : Part} (h : p ≠ .absent) : p.close ≠ .absent := by cases p <;> simp_all [Part.close]

theorem lau_step {c : Cfg} {s : St} (h : Lau c s) (e : Ev) : Lau c (step c s e) := by
  have hl : ∀ i p, p ≠ LPC.none → ∀ k, s.loop k ≠ .none → upd s.loop i p k ≠ .none := by
    intro i p hp k hk
    by_cases e : k = i
    · subst e; rw [upd_self]; exact hp
    · rw [upd_ne _ _ e]; exact hk
  cases hpn : s.panicked with
  | true => simp only [step, hpn, if_true]; exact h
  | false =>
  simp only [step, hpn, Bool.false_eq_true, if_false]
  cases e with
  | look i =>
    dsimp only; split
    · exact lau_congr h rfl (hl i _ (by split <;> simp)) id id id
    · exact h
  | round i =>
    dsimp only; split
    · exact lau_congr h rfl (hl i _ (by split <;> simp)) id id id
    · exact h
  | done i =>
    dsimp only; split
    · split
      · exact lau_congr h rfl (fun _ => id) id id id
      · exact lau_congr h rfl (hl i _ (by simp)) id id id
    · exact h
  | call j g =>
    simp only [callStep]
    cases s.call j with
    | idle => dsimp only; split <;> exact lau_congr h rfl (fun _ => id) id id id
    | marked => exact lau_congr h rfl (fun _ => id) Part.close_absent id id
    | waiting => dsimp only; split
                 · exact lau_congr h rfl (fun _ => id) id id id
                 · exact h
    | api => exact lau_congr h rfl (fun _ => id) id (fun _ => by simp) id
    | listener => exact lau_congr h rfl (fun _ => id) id id Part.close_absent
    | returned => exact h
    | refused => exact h
  | start ok =>
    simp only [startStep]
    cases hs : s.spc with
    | fresh =>
      dsimp only
      split
      · constructor <;> simp
      · split
        · constructor <;> simp
        · split <;> constructor <;> simp
    | check => dsimp only; split <;> constructor <;> simp
    | query => cases ok <;> constructor <;> simp
    | mgr => constructor <;> simp
    | launch k =>
      obtain ⟨h1, h2⟩ := h.la k hs
      have hm := h.mg (.inl ⟨k, .inl hs⟩)
      dsimp only; split
      · rename_i hk
        constructor <;> simp
        · refine ⟨hk, fun i hi => ?_⟩
          by_cases e : i = k
          · subst e; rw [upd_self]; simp
          · rw [upd_ne _ _ e]; exact h2 i (by omega)
        · exact hm
      · have : k = total c := by omega
        subst this
        constructor <;> simp
        · exact h2
        · exact hm
    | add k =>
      obtain ⟨h1, h2⟩ := h.ad k hs
      have hm := h.mg (.inl ⟨k, .inr hs⟩)
      constructor <;> simp
      · exact ⟨by omega, fun i hi => h2 i (by omega)⟩
      · exact hm
    | api =>
      have h1 := h.al (.inl hs)
      have hm := h.mg (.inr (.inl hs))
      cases hf : c.forward with
      | true =>
        constructor <;> simp [hf]
        · exact h1
        · exact hm
        · split <;> simp
      | false =>
        constructor <;> simp [hf]
        · exact h1
        · exact hm
        · split <;> simp
    | listen =>
      have h1 := h.al (.inr (.inl hs))
      have hm := h.mg (.inr (.inr (.inl hs)))
      have ha := h.ap (.inl hs)
      dsimp only; split
      · constructor <;> simp
        · exact h1
        · exact hm
        · exact ha
      · constructor <;> simp
    | returned b => dsimp only; exact h

/-- **C124, success means that everything was started**, whatever calls of `Shutdown` and `Close` run meanwhile: if `Start` reports
success, every connection loop, the manager of the tunnels, the API server and (if asked for) the forward listener have been started,
although they may have been closed since. A client that is closed while it still looks for its server reports a failure. -/
theorem success_means_started (c : Cfg) (es : List Ev) (hs : (run c init es).spc = .returned true) :
    (∀ i, i < total c → (run c init es).loop i ≠ .none) ∧ (run c init es).mgr ≠ .absent ∧ (run c init es).api ≠ .absent ∧
    (c.forward = true → (run c init es).listener ≠ .absent) := by
  have : ∀ (es : List Ev) s, Lau c s → Lau c (run c s es) := by
    intro es
    induction es with
    | nil => intro s h; exact h
    | cons e es ih => intro s h; exact ih _ (lau_step h e)
  have h := this es init (by constructor <;> simp [init])
  exact ⟨h.al (.inr (.inr hs)), h.mg (.inr (.inr (.inr hs))), h.ap (.inr hs), h.li hs⟩


/-- Whoever is asked does not answer, or `Start` waits to ask again. -/
def Asking (s : St) : Prop := s.spc = .check ∨ s.spc = .query

theorem closing_stays (c : Cfg) (s : St) (h : s.closing = true) (e : Ev) : (step c s e).closing = true := by
  unfold step
  split
  · exact h
  · cases e with
    | start ok => simp only [startStep]; cases s.spc <;> simp only <;> (repeat' split) <;> exact h
    | look i => simp only; split <;> exact h
    | round i => simp only; split <;> exact h
    | done i => simp only; split <;> (try split) <;> exact h
    | call j g => simp only [callStep]; cases s.call j <;> simp only <;> (repeat' split) <;> first | exact h | rfl

theorem spc_others (c : Cfg) (s : St) (e : Ev) (he : ∀ ok, e ≠ .start ok) : (step c s e).spc = s.spc := by
  unfold step
  split
  · rfl
  · cases e with
    | start ok => exact absurd rfl (he ok)
    | look i => simp only; split <;> rfl
    | round i => simp only; split <;> rfl
    | done i => simp only; split <;> (try split) <;> rfl
    | call j g => simp only [callStep]; cases s.call j <;> simp only <;> (repeat' split) <;> rfl

/-- `Start` that asks in vain for the address of a server gives up once `Shutdown` or `Close` was called: after two more steps of its own at
most, whatever else happens in between. -/
theorem asking_ends (c : Cfg) (s : St) (hc : s.closing = true) (ha : Asking s) (es : List Ev) (hf : Ev.start true ∉ es)
    (h2 : 2 ≤ es.count (.start false)) : (run c s es).spc = .returned false ∨ (run c s es).panicked = true := by
  have dead : ∀ (es : List Ev) (s : St), s.panicked = true → (run c s es).panicked = true := by
    intro es
    induction es with
    | nil => intro s h; exact h
    | cons e es ih => intro s h; simp only [run]; apply ih; unfold step; rw [if_pos h]; exact h
  have over : ∀ (es : List Ev) (s : St), s.spc = .returned false → (run c s es).spc = .returned false := by
    intro es
    induction es with
    | nil => intro s h; exact h
    | cons e es ih =>
      intro s h
      simp only [run]
      apply ih
      cases e with
      | start ok =>
        unfold step
        split
        · exact h
        · simp only [startStep, h]
      | _ => rw [spc_others c s _ (by intro ok; simp)]; exact h
  have key : ∀ (es : List Ev) (s : St), s.closing = true → Ev.start true ∉ es →
      (s.spc = .check ∧ 1 ≤ es.count (.start false) ∨ s.spc = .query ∧ 2 ≤ es.count (.start false)) →
      (run c s es).spc = .returned false ∨ (run c s es).panicked = true := by
    intro es
    induction es with
    | nil => intro s _ _ h; simp at h
    | cons e es ih =>
      intro s hc hf h
      simp only [run]
      by_cases hp : s.panicked = true
      · exact .inr (dead es _ (by unfold step; rw [if_pos hp]; exact hp))
      · have hcl := closing_stays c s hc e
        have hf' : Ev.start true ∉ es := fun m => hf (List.mem_cons_of_mem _ m)
        by_cases he : ∃ ok, e = .start ok
        · obtain ⟨ok, rfl⟩ := he
          have : ok = false := by cases ok with
            | false => rfl
            | true => exact absurd (List.mem_cons_self) hf
          subst this
          rw [List.count_cons_self] at h
          rcases h with ⟨h1, h3⟩ | ⟨h1, h3⟩
          · left
            apply over
            unfold step
            rw [if_neg hp]
            simp only [startStep, h1, hc, if_true]
          · apply ih _ hcl hf'
            left
            refine ⟨?_, by omega⟩
            unfold step
            rw [if_neg hp]
            simp [startStep, h1]
        · have hne : ∀ ok, e ≠ .start ok := fun ok h => he ⟨ok, h⟩
          apply ih _ hcl hf'
          rw [spc_others c s e hne]
          rw [List.count_cons_of_ne (hne false)] at h
          exact h
  apply key es s hc hf
  rcases ha with h | h
  · exact .inl ⟨h, by omega⟩
  · exact .inr ⟨h, h2⟩

example : Asking (run ⟨0, true, 3, false⟩ init [.start true, .call 0 false, .call 0 false]) ∧
    (run ⟨0, true, 3, false⟩ init [.start true, .call 0 false, .call 0 false]).closing = true := ⟨.inl rfl, rfl⟩

end Verif.Client.StartStop
