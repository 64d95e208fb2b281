import Verif.Common
set_option linter.unusedSimpArgs false
set_option linter.unusedVariables false
/-!
# C111: signals sent with `gt -s`
(bin/src/manager.rs:199-226 `watcher`, 499-596 `run_manager`, 785-809 `create_signal_files`, `send_signal`;
bin/src/main.rs:70-77)

`gt -s reload` creates the file `reload` in a directory that all managers on the machine share, and a manager
watches this directory. A manager acts on one signal only: after `reload` and `restart` a new manager, started
by the old one, takes over; after `stop` none is left.

Simplified: one line of managers, each started by the one before it (several independent managers hear the same
signals); the library that watches delivers every event after the watch began, in order; time is in
milliseconds.
-/
namespace Verif.Manager.Signals

inductive Signal where
  | reload | restart | stop
deriving DecidableEq, Repr

/-- The files in the directory. -/
inductive Name where
  | sig (s : Signal)
  /-- `pid`, and whatever else is there -/
  | other
deriving DecidableEq, Repr

/-- What the library reports about a file (inotify: created, opened, written, closed, removed, renamed). -/
inductive Kind where
  | create | open_ | modify | close | remove | rename
deriving DecidableEq, Repr

inductive Ev where
  /-- something happens to a file -/
  | fs (t : Nat) (k : Kind) (n : Name)
  /-- the newest manager has started its processes and begins to watch (bin/src/manager.rs:529-563) -/
  | up
deriving DecidableEq, Repr

inductive Phase where
  /-- starting its processes -/
  | starting
  | watching
  /-- no manager is left -/
  | gone
deriving DecidableEq, Repr

structure St where
  phase : Phase := .starting
  /-- `process_signal_time` of the newest manager -/
  last : Option Nat := none
  /-- the signals acted upon -/
  acted : List Signal := []
deriving DecidableEq, Repr

/-- bin/src/manager.rs:503-518 `process_event!`: whether a signal that comes at `t` is passed on. -/
def accepted (last : Option Nat) (t : Nat) : Bool :=
  match last with
  | none => true
  | some p => ¬ (t - p < 3000)

/-- bin/src/manager.rs:564-591: what follows a signal. -/
def after : Signal → Phase
  | .stop => .gone
  | _ => .starting

/-- bin/src/manager.rs:536-547 and 564-591: the kind of the event is not looked at. After `reload` and `restart` the
new manager is the newest one (`process_signal` starts it first, 163); the old one only ends its processes. -/
def step (s : St) : Ev → St
  | .up =>
    match s.phase with
    | .starting => { s with phase := .watching, last := none }
    | _ => s
  | .fs t _ (.sig g) =>
    match s.phase with
    | .watching =>
      if accepted s.last t then
        ⟨after g, some t, s.acted ++ [g]⟩
      else s
    | _ => s
  | .fs _ _ .other => s

def run (s : St) (l : List Ev) : St := l.foldl step s

/-- bin/src/manager.rs:796-809 `send_signal` with bin/src/main.rs:70-77, for a file that exists (`old`) or not: the events, and
whether success is reported. `dir`: the directory exists; it is never removed. -/
def send (dir old : Bool) (t : Nat) (g : Signal) : List Ev × Bool :=
  if dir then
    ((if old then [] else [.fs t .create (.sig g)]) ++
      [.fs t .open_ (.sig g), .fs t .modify (.sig g), .fs t .close (.sig g)], true)
  else ([], false)

/-! ## Specification -/

/-- The signals sent, in order: `run` of an alternation of sends and other events. -/
inductive Act where
  | send (t : Nat) (g : Signal)
  | up
  /-- somebody looks at, removes or renames a file without sending a signal -/
  | touch (t : Nat) (k : Kind) (n : Name)
deriving DecidableEq, Repr

def events (old : Bool) : List Act → List Ev
  | [] => []
  | .send t g :: r => (send true old t g).1 ++ events old r
  | .up :: r => .up :: events old r
  | .touch t k n :: r => .fs t k n :: events old r

/-- Full property C111: after a `stop` for which success was reported no manager is left. -/
def StopStops (old : Bool) (l : List Act) (t : Nat) : Prop :=
  (run {} (events old (l ++ [.send t .stop]))).phase = .gone

/-- Full property C111: without `gt -s` nothing is done. -/
def OnlySignals (old : Bool) (l : List Act) : Prop :=
  (∀ t g, Act.send t g ∉ l) → (run {} (events old l)).acted = []

/-! ## Proofs -/

theorem run_append (s : St) (a b : List Ev) : run s (a ++ b) = run (run s a) b := List.foldl_append

theorem events_append (old : Bool) (a b : List Act) : events old (a ++ b) = events old a ++ events old b := by
  induction a with
  | nil => rfl
  | cons x t ih => cases x <;> simp [events, ih]

theorem starting_stays {s : St} (h : s.phase ≠ .watching) (l : List Ev) (hu : Ev.up ∉ l) :
    run s l = s := by
  induction l with
  | nil => rfl
  | cons e t ih =>
    have hs : step s e = s := by
      cases e with
      | up => exact absurd (List.mem_cons_self) hu
      | fs t k n =>
        cases n with
        | other => rfl
        | sig g => cases hp : s.phase <;> simp_all [step]
    show run (step s e) t = s
    rw [hs]
    exact ih (fun hm => hu (List.mem_cons_of_mem _ hm))

theorem send_no_up (dir old : Bool) (t : Nat) (g : Signal) : Ev.up ∉ (send dir old t g).1 := by
  unfold send
  cases dir <;> cases old <;> simp

/-- while a manager watches, its `last` is still unset: it acts on one signal only -/
theorem watching_fresh (l : List Ev) : (run {} l).phase = .watching → (run {} l).last = none := by
  have key : ∀ (l : List Ev) (s : St), (s.phase = .watching → s.last = none) →
      ((run s l).phase = .watching → (run s l).last = none) := by
    intro l
    induction l with
    | nil => intro s h; exact h
    | cons e t ih =>
      intro s h
      refine ih (step s e) ?_
      cases e with
      | up => cases hp : s.phase <;> simp_all [step]
      | fs t k n =>
        cases n with
        | other => exact h
        | sig g =>
          cases hp : s.phase with
          | starting => simp [step, hp]
          | gone => simp [step, hp]
          | watching =>
            simp only [step, hp, accepted, h hp]
            cases g <;> simp [after]
  exact key l {} (by simp)

theorem send_watching {s : St} (hp : s.phase = .watching) (hl : s.last = none) (old : Bool) (t : Nat) (g : Signal) :
    run s (send true old t g).1 =
      ⟨after g, some t, s.acted ++ [g]⟩ := by
  have h1 : ∀ k, step s (.fs t k (.sig g)) =
      ⟨after g, some t, s.acted ++ [g]⟩ := by
    intro k
    simp [step, hp, hl, accepted]
  have h2 : ∀ l, Ev.up ∉ l → run (⟨after g, some t, s.acted ++ [g]⟩ : St) l =
      ⟨after g, some t, s.acted ++ [g]⟩ := by
    intro l hl
    exact starting_stays (by cases g <;> simp [after]) l hl
  cases old with
  | false =>
    show run (step s (.fs t .create (.sig g))) _ = _
    rw [h1]
    exact h2 _ (by simp)
  | true =>
    show run (step s (.fs t .open_ (.sig g))) _ = _
    rw [h1]
    exact h2 _ (by simp)

/-- **C111** A signal sent while a manager watches is carried out, once, although it causes several events: a
`stop` leaves no manager, after the others a new one starts. -/
theorem signal_carried_out (old : Bool) (l : List Act) (t : Nat) (g : Signal)
    (hw : (run {} (events old l)).phase = .watching) :
    (run {} (events old (l ++ [.send t g]))).acted = (run {} (events old l)).acted ++ [g] ∧
    ((run {} (events old (l ++ [.send t g]))).phase = .gone ↔ g = .stop) := by
  rw [events_append, run_append]
  have e : events old [.send t g] = (send true old t g).1 := by simp [events]
  rw [e, send_watching hw (watching_fresh _ hw)]
  cases g <;> simp [after]

/-- **C111** (part) `stop` stops, if a manager watches. -/
theorem stop_stops_partial (old : Bool) (l : List Act) (t : Nat)
    (hw : (run {} (events old l)).phase = .watching) : StopStops old l t :=
  (signal_carried_out old l t .stop hw).2.mpr rfl

/-- **C111** Nothing is done twice: there are never more actions than signals sent and touches of the files. -/
theorem acted_bound (old : Bool) (l : List Act) :
    (run {} (events old l)).acted.length ≤ (l.filter (· ≠ .up)).length := by
  have key : ∀ (l : List Act) (s : St), (s.phase = .watching → s.last = none) →
      (run s (events old l)).acted.length ≤ s.acted.length + (l.filter (· ≠ .up)).length := by
    intro l
    induction l with
    | nil => intro s _; simp [events, run]
    | cons a r ih =>
      intro s hs
      cases a with
      | up =>
        have hs' : (step s .up).phase = .watching → (step s .up).last = none := by
          cases hp : s.phase <;> simp_all [step]
        have := ih (step s .up) hs'
        have ha : (step s .up).acted = s.acted := by cases hp : s.phase <;> simp [step, hp]
        rw [ha] at this
        have hf : ((Act.up :: r).filter (· ≠ .up)).length = (r.filter (· ≠ .up)).length := by simp
        rw [hf]
        exact this
      | touch t k n =>
        have hs' : (step s (.fs t k n)).phase = .watching → (step s (.fs t k n)).last = none := by
          cases n with
          | other => exact hs
          | sig g =>
            cases hp : s.phase with
            | watching => simp only [step, hp, accepted, hs hp]; cases g <;> simp [after]
            | _ => simp [step, hp]
        have := ih (step s (.fs t k n)) hs'
        have ha : (step s (.fs t k n)).acted.length ≤ s.acted.length + 1 := by
          cases n with
          | other => simp [step]
          | sig g =>
            cases hp : s.phase <;> simp [step, hp]
            split <;> simp
        have hf : ((Act.touch t k n :: r).filter (· ≠ .up)).length = (r.filter (· ≠ .up)).length + 1 := by simp
        rw [hf]
        show (run (step s (.fs t k n)) (events old r)).acted.length ≤ _
        omega
      | send t g =>
        have hf : ((Act.send t g :: r).filter (· ≠ .up)).length = (r.filter (· ≠ .up)).length + 1 := by simp
        rw [hf]
        simp only [events]
        rw [run_append]
        cases hp : s.phase with
        | watching =>
          rw [send_watching hp (hs hp)]
          have := ih (⟨after g, some t, s.acted ++ [g]⟩ : St) (by cases g <;> simp [after])
          simp at this
          simp
          omega
        | starting =>
          rw [starting_stays (by simp [hp]) _ (send_no_up _ _ _ _)]
          have := ih s hs
          omega
        | gone =>
          rw [starting_stays (by simp [hp]) _ (send_no_up _ _ _ _)]
          have := ih s hs
          omega
  have := key l {} (by simp)
  simpa using this

/-- **C111 fails**: a signal sent while the newest manager is starting its processes, as after every `reload`,
is lost, though success is reported. -/
theorem signal_lost_while_starting (old : Bool) (l : List Act) (t : Nat) (g : Signal)
    (hs : (run {} (events old l)).phase ≠ .watching) :
    (send true old t g).2 = true ∧
    run {} (events old (l ++ [.send t g])) = run {} (events old l) := by
  refine ⟨rfl, ?_⟩
  rw [events_append, run_append]
  have e : events old [.send t g] = (send true old t g).1 := by simp [events]
  rw [e, starting_stays hs _ (send_no_up _ _ _ _)]

/-- In particular a `stop` soon after a `reload` does not stop, whatever the distance. -/
theorem stop_after_reload_lost (old : Bool) (t t' : Nat) :
    ¬ StopStops old [.up, .send t .reload] t' := by
  intro h
  have hw : (run {} (events old [.up])).phase = .watching := rfl
  have h1 := signal_carried_out old [.up] t .reload hw
  have h2 : (run {} (events old [.up, .send t .reload])).phase ≠ .watching := by
    have e : events old [.up, .send t .reload] = events old [.up] ++ (send true old t .reload).1 := by
      simp [events]
    rw [e, run_append, send_watching hw rfl]
    simp [after]
  have h3 := (signal_lost_while_starting old [.up, .send t .reload] t' .stop h2).2
  unfold StopStops at h
  rw [h3] at h
  have := (h1.2.mp h)
  exact absurd this (by simp)

/-- **C111 fails**: reading or removing one of the files is taken for a signal. -/
theorem touching_is_a_signal (old : Bool) (l : List Act) (t : Nat) (k : Kind) (g : Signal)
    (hw : (run {} (events old l)).phase = .watching) :
    (run {} (events old (l ++ [.touch t k (.sig g)]))).acted = (run {} (events old l)).acted ++ [g] := by
  rw [events_append, run_append]
  simp [events, run, step]
  have hw' : (List.foldl step {} (events old l)).phase = .watching := hw
  have hl : (List.foldl step {} (events old l)).last = none := watching_fresh _ hw
  simp [hw', hl, accepted]

theorem not_only_signals : ¬ OnlySignals true [.up, .touch 0 .remove (.sig .stop)] := by
  intro h
  have := h (by simp)
  revert this
  decide

/-- **C111** Other files have no effect. -/
theorem other_files_ignored (s : St) (t : Nat) (k : Kind) : step s (.fs t k .other) = s := rfl

/-- **C111 fails**: success is reported whether or not anybody listens. -/
theorem success_without_listener (old : Bool) (t : Nat) (g : Signal) :
    (send true old t g).2 = true ∧ (run { phase := .gone } (send true old t g).1).acted = [] :=
  ⟨rfl, by rw [starting_stays (by simp) _ (send_no_up _ _ _ _)]⟩

/-- **C111** Without the directory, that is before any manager ever ran, failure is reported. -/
theorem no_manager_ever_reported (old : Bool) (t : Nat) (g : Signal) :
    (send false old t g).2 = false ∧ (send false old t g).1 = [] := ⟨rfl, rfl⟩

/-- The pause of three seconds between signals never matters: a manager acts on its first signal only. -/
theorem pause_never_matters (l : List Ev) (t : Nat) (h : (run {} l).phase = .watching) :
    accepted (run {} l).last t = true := by
  rw [watching_fresh l h]; rfl

/-! ## Witnesses -/
example : (run {} (events false [.up, .send 0 .reload, .up, .send 1000 .stop])).acted = [.reload, .stop] ∧
    StopStops false [.up, .send 0 .reload, .up] 1000 := by
  refine ⟨by decide, stop_stops_partial _ _ _ (by decide)⟩
example : (run {} (events true [.up, .send 0 .reload, .send 10000 .stop])).acted = [.reload] := by decide

end Verif.Manager.Signals
