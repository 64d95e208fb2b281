import Verif.Common
/-!
# C54: the manager supervises its processes (bin/src/manager.rs:235-305, 352-454, 599-625)

One task of the manager per configured process: it starts the process, follows the operations the process writes
to its standard output, and starts it again when it ends without having been asked to. Times are milliseconds.
-/
set_option linter.unusedSimpArgs false
set_option linter.unusedVariables false
namespace Verif.Manager.Supervise

/-- What a process can write to its standard output, as `handle_stdout` (bin/src/manager.rs:235-305) tells apart. -/
inductive Op where
  /-- `OP::Ready` -/
  | ready
  /-- `OP::ShutdownDone | OP::GracefulShutdownDone` -/
  | shutdownDone
  /-- `OP::Reconnect`; the flag tells whether `sync_run` could start the replacement (bin/src/manager.rs:286-294). That
  replacement is supervised by a task of its own. -/
  | reconnect (ok : Bool)
  /-- any other operation: logged only -/
  | other
  /-- end of stream or nonsense: `read_json` fails (bin/src/manager.rs:299-302) -/
  | broken
deriving DecidableEq, Repr

inductive Mode where
  /-- the process was spawned, the loop (bin/src/manager.rs:356) is about to begin -/
  | spawned
  /-- bin/src/manager.rs:357-372: the process is entered into the table; the entry it displaces is shut down, which takes
  at most 120 s -/
  | attaching (start : Nat)
  /-- in the `select!` (bin/src/manager.rs:381-419); `reading`: `handle_stdout` has not stopped for good -/
  | running (start : Nat) (reading exited : Bool)
  /-- bin/src/manager.rs:403-412: the sender of the kill channel is gone, the task waits for the process -/
  | draining
  /-- bin/src/manager.rs:430-432 -/
  | sleeping (till : Nat)
  | returned
deriving DecidableEq, Repr

structure St where
  now : Nat
  mode : Mode
  /-- number of processes of this task that are alive -/
  live : Nat
  /-- when the last process died -/
  died : Nat
  /-- when processes were started, the latest first -/
  starts : List Nat
deriving DecidableEq, Repr

/-- bin/src/manager.rs:343-349: `run` spawns the process, then the task begins. -/
def init : St := { now := 0, mode := .spawned, live := 1, died := 0, starts := [0] }

inductive Lbl where
  /-- time passes -/
  | tick (d : Nat)
  /-- the process ends, for whatever reason -/
  | die
  | begin
  | attach
  | op (o : Op)
  /-- `c.wait()` returns (bin/src/manager.rs:386-395) -/
  | notice
  /-- `kill_rx` yields a value (bin/src/manager.rs:397-402); the process is dead when `c.kill().await` returns -/
  | kill
  /-- `kill_rx` yields an error (bin/src/manager.rs:403) -/
  | dropped
  | drained
  /-- the timer of bin/src/manager.rs:432 fires; `spawn` succeeds or not (bin/src/manager.rs:433-452) -/
  | wake (ok : Bool)
deriving DecidableEq, Repr

/-- The pause before a restart (bin/src/manager.rs:424-429). -/
def pause (lived : Nat) : Nat := if lived < 60000 then 60000 else 3000

/-- The pause after a failed restart (bin/src/manager.rs:436, 449). -/
def retry : Nat := 180000

/-- How far time may advance: the runtime handles what is ready before time passes (simplification: no latency). -/
def mayPass (s : St) (d : Nat) : Prop :=
  match s.mode with
  | .spawned => d = 0
  | .attaching t => s.now + d ≤ t + 120000
  | .running _ _ _ => s.live = 0 → d = 0
  | .draining => s.live = 0 → d = 0
  | .sleeping till => s.now + d ≤ till
  | .returned => True

instance (s : St) (d : Nat) : Decidable (mayPass s d) := by
  unfold mayPass; cases s.mode <;> dsimp only <;> infer_instance

/-- One step; `none` if it is not possible. -/
def step (s : St) : Lbl → Option St
  | .tick d => if mayPass s d then some { s with now := s.now + d } else none
  | .die => if 0 < s.live then some { s with live := s.live - 1, died := s.now } else none
  | .begin =>
    match s.mode with
    | .spawned => some { s with mode := .attaching s.now }
    | _ => none
  | .attach =>
    match s.mode with
    | .attaching t => some { s with mode := .running t true false }
    | _ => none
  | .op o =>
    match s.mode with
    | .running t true _ =>
      match o with
      | .ready => some s
      | .other => some s
      | .shutdownDone => some { s with mode := .running t false true }
      | .reconnect _ => some { s with mode := .running t false true }
      | .broken => some { s with mode := .running t false false }
    | _ => none
  | .notice =>
    match s.mode with
    | .running t _ exited =>
      if s.live = 0 then
        if exited then some { s with mode := .returned }
        else some { s with mode := .sleeping (s.now + pause (s.now - t)) }
      else none
    | _ => none
  | .kill =>
    match s.mode with
    | .running _ _ _ =>
      some { s with mode := .returned, live := 0, died := if s.live = 0 then s.died else s.now }
    | _ => none
  | .dropped =>
    match s.mode with
    | .running _ _ _ => some { s with mode := .draining }
    | _ => none
  | .drained =>
    match s.mode with
    | .draining => if s.live = 0 then some { s with mode := .returned } else none
    | _ => none
  | .wake ok =>
    match s.mode with
    | .sleeping till =>
      if till ≤ s.now then
        if ok then some { s with mode := .spawned, live := s.live + 1, starts := s.now :: s.starts }
        else some { s with mode := .sleeping (s.now + retry) }
      else none
    | _ => none

def run (s : St) : List Lbl → Option St
  | [] => some s
  | l :: ls =>
    match step s l with
    | none => none
    | some s => run s ls

/-! ## Specification -/

/-- The events after which a process must not be started again: it announced its shutdown, a replacement was
started in its place, or the manager killed or released it. -/
def Ends : Lbl → Prop
  | .op .shutdownDone => True
  | .op (.reconnect _) => True
  | .kill => True
  | .dropped => True
  | _ => False

theorem run_append {ls ms s} : run s (ls ++ ms) = (run s ls).bind (fun s => run s ms) := by
  induction ls generalizing s with
  | nil => rfl
  | cons l ls ih =>
    simp only [List.cons_append, run]
    cases step s l with
    | none => rfl
    | some s1 => exact ih

/-! ## Invariants -/

/-- Facts of every reachable state. -/
structure Inv (s : St) : Prop where
  live1 : s.live ≤ 1
  dead : ∀ u, s.mode = .sleeping u → s.live = 0
  started : ∃ t r, s.starts = t :: r ∧ t ≤ s.now
  order : ∀ t r, s.mode = .attaching t → s.starts.head? = some r → r ≤ t ∧ t ≤ s.now
  order2 : ∀ t a b r, s.mode = .running t a b → s.starts.head? = some r → r ≤ t ∧ t ≤ s.now
  order3 : ∀ u r, s.mode = .sleeping u → s.starts.head? = some r → r + 60000 ≤ u
  spaced : s.starts.Pairwise (fun a b => b + 60000 ≤ a)

theorem inv_init : Inv init := by
  refine ⟨by decide, ?_, ⟨0, [], rfl, by decide⟩, ?_, ?_, ?_, ?_⟩
  · intro u h; cases h
  · intro t r h; cases h
  · intro t a b r h; cases h
  · intro u r h; cases h
  · exact List.pairwise_singleton _ _

theorem inv_step {s l s'} (hi : Inv s) (hs : step s l = some s') : Inv s' := by
  obtain ⟨t0, r0, hst, ht0⟩ := hi.started
  have hhead : s.starts.head? = some t0 := by rw [hst]; rfl
  cases l with
  | tick d =>
    simp only [step] at hs
    split at hs
    · rw [Option.some.injEq] at hs; subst hs
      refine ⟨hi.live1, hi.dead, ⟨t0, r0, hst, by dsimp only; omega⟩, ?_, ?_, hi.order3, hi.spaced⟩
      · intro t r h1 h2
        have := hi.order t r h1 h2
        dsimp only; omega
      · intro t a b r h1 h2
        have := hi.order2 t a b r h1 h2
        dsimp only; omega
    · cases hs
  | die =>
    simp only [step] at hs
    split at hs
    · rename_i hl
      rw [Option.some.injEq] at hs; subst hs
      refine ⟨by have := hi.live1; dsimp only; omega, ?_, hi.started, hi.order, hi.order2, hi.order3, hi.spaced⟩
      intro u h
      have := hi.dead u h
      dsimp only; omega
    · cases hs
  | begin =>
    simp only [step] at hs
    split at hs
    · rename_i hm
      rw [Option.some.injEq] at hs; subst hs
      refine ⟨hi.live1, ?_, hi.started, ?_, ?_, ?_, hi.spaced⟩
      · intro u h; cases h
      · intro t r h1 h2
        cases h1
        dsimp only at h2 ⊢
        rw [hhead, Option.some.injEq] at h2
        subst h2
        exact ⟨ht0, Nat.le_refl _⟩
      · intro t a b r h; cases h
      · intro u r h; cases h
    · cases hs
  | attach =>
    simp only [step] at hs
    split at hs
    · rename_i t hm
      rw [Option.some.injEq] at hs; subst hs
      refine ⟨hi.live1, ?_, hi.started, ?_, ?_, ?_, hi.spaced⟩
      · intro u h; cases h
      · intro t r h; cases h
      · intro t' a b r h1 h2
        cases h1
        exact hi.order t r hm h2
      · intro u r h; cases h
    · cases hs
  | op o =>
    simp only [step] at hs
    split at hs
    · rename_i t e hm
      have hrun : ∀ a b, Inv { s with mode := .running t a b } := by
        intro a b
        refine ⟨hi.live1, ?_, hi.started, ?_, ?_, ?_, hi.spaced⟩
        · intro u h; cases h
        · intro t r h; cases h
        · intro t' a b r h1 h2
          cases h1
          exact hi.order2 t _ _ r hm h2
        · intro u r h; cases h
      cases o <;> (dsimp only at hs; rw [Option.some.injEq] at hs; subst hs)
      · exact hi
      · exact hrun _ _
      · exact hrun _ _
      · exact hi
      · exact hrun _ _
    · cases hs
  | notice =>
    simp only [step] at hs
    split at hs
    · rename_i t a e hm
      by_cases hl : s.live = 0
      · rw [if_pos hl] at hs
        cases e with
        | true =>
          rw [if_pos rfl, Option.some.injEq] at hs; subst hs
          refine ⟨hi.live1, ?_, hi.started, ?_, ?_, ?_, hi.spaced⟩
          · intro u h; cases h
          · intro t r h; cases h
          · intro t a b r h; cases h
          · intro u r h; cases h
        | false =>
          rw [if_neg (by decide), Option.some.injEq] at hs; subst hs
          refine ⟨hi.live1, fun _ _ => hl, hi.started, ?_, ?_, ?_, hi.spaced⟩
          · intro t r h; cases h
          · intro t a b r h; cases h
          · intro u r h1 h2
            cases h1
            have := hi.order2 t _ _ r hm h2
            unfold pause
            split <;> omega
      · rw [if_neg hl] at hs; cases hs
    · cases hs
  | kill =>
    simp only [step] at hs
    split at hs
    · rw [Option.some.injEq] at hs; subst hs
      refine ⟨by dsimp only; omega, ?_, hi.started, ?_, ?_, ?_, hi.spaced⟩
      · intro u h; cases h
      · intro t r h; cases h
      · intro t a b r h; cases h
      · intro u r h; cases h
    · cases hs
  | dropped =>
    simp only [step] at hs
    split at hs
    · rw [Option.some.injEq] at hs; subst hs
      refine ⟨hi.live1, ?_, hi.started, ?_, ?_, ?_, hi.spaced⟩
      · intro u h; cases h
      · intro t r h; cases h
      · intro t a b r h; cases h
      · intro u r h; cases h
    · cases hs
  | drained =>
    simp only [step] at hs
    split at hs
    · by_cases hl : s.live = 0
      · rw [if_pos hl, Option.some.injEq] at hs; subst hs
        refine ⟨hi.live1, ?_, hi.started, ?_, ?_, ?_, hi.spaced⟩
        · intro u h; cases h
        · intro t r h; cases h
        · intro t a b r h; cases h
        · intro u r h; cases h
      · rw [if_neg hl] at hs; cases hs
    · cases hs
  | wake ok =>
    simp only [step] at hs
    split at hs
    · rename_i till hm
      have hd := hi.dead till hm
      have ho := hi.order3 till t0 hm hhead
      by_cases ht : till ≤ s.now
      · rw [if_pos ht] at hs
        cases ok with
        | true =>
          rw [if_pos rfl, Option.some.injEq] at hs; subst hs
          refine ⟨by dsimp only; omega, ?_, ⟨s.now, s.starts, rfl, Nat.le_refl _⟩, ?_, ?_, ?_, ?_⟩
          · intro u h; cases h
          · intro t r h; cases h
          · intro t a b r h; cases h
          · intro u r h; cases h
          · dsimp only
            refine List.pairwise_cons.mpr ⟨?_, hi.spaced⟩
            intro x hx
            rw [hst] at hx
            rcases List.mem_cons.mp hx with rfl | hx
            · omega
            · have hp := hi.spaced
              rw [hst] at hp
              have := (List.pairwise_cons.mp hp).1 x hx
              omega
        | false =>
          rw [if_neg (by decide), Option.some.injEq] at hs; subst hs
          refine ⟨hi.live1, fun _ _ => hd, hi.started, ?_, ?_, ?_, hi.spaced⟩
          · intro t r h; cases h
          · intro t a b r h; cases h
          · intro u r h1 h2
            cases h1
            dsimp only at h2
            rw [hhead, Option.some.injEq] at h2
            subst h2
            unfold retry
            omega
      · rw [if_neg ht] at hs; cases hs
    · cases hs

theorem inv_run : ∀ {ls s s'}, Inv s → run s ls = some s' → Inv s'
  | [], s, s', hi, h => by simp only [run, Option.some.injEq] at h; rw [← h]; exact hi
  | l :: ls, s, s', hi, h => by
    simp only [run] at h
    cases hs : step s l with
    | none => rw [hs] at h; cases h
    | some s1 => rw [hs] at h; exact inv_run (inv_step hi hs) h

/-- **C54**: a task never has two processes at once. -/
theorem one_process (ls : List Lbl) (s : St) (h : run init ls = some s) : s.live ≤ 1 :=
  (inv_run inv_init h).live1

/-- **C54**: however fast a process crashes, it is started at most once a minute. -/
theorem restarts_spaced (ls : List Lbl) (s : St) (h : run init ls = some s) :
    s.starts.Pairwise (fun later earlier => earlier + 60000 ≤ later) :=
  (inv_run inv_init h).spaced

/-! ## Nobody gives up -/

/-- As long as nothing ended the task: it goes on, and a dead process is being replaced in time. `fails` bounds
the failed attempts to start the process again. -/
structure Alive (f : Nat) (s : St) : Prop where
  on : s.mode ≠ .returned ∧ s.mode ≠ .draining
  notEnded : ∀ t a b, s.mode = .running t a b → b = false
  diedBefore : s.died ≤ s.now
  spawned : s.mode = .spawned → s.live = 0 → s.now ≤ s.died
  attaching : ∀ t, s.mode = .attaching t → s.live = 0 → t ≤ s.died ∧ s.now ≤ t + 120000
  running : ∀ t a b, s.mode = .running t a b → s.live = 0 →
    t ≤ s.died ∧ s.now ≤ s.died + 120000 ∧ (s.now ≤ t + 120000 ∨ s.now = s.died)
  sleeping : ∀ u, s.mode = .sleeping u → s.live = 0 ∧ s.now ≤ u ∧ u ≤ s.died + 123000 + f * 180000

/-- Facts about the start of a living process. -/
structure Starts (s : St) : Prop where
  attaching : ∀ t, s.mode = .attaching t → t ≤ s.now ∧ s.now ≤ t + 120000
  running : ∀ t a b, s.mode = .running t a b → t ≤ s.now

def failed : List Lbl → Nat
  | [] => 0
  | .wake false :: ls => failed ls + 1
  | _ :: ls => failed ls

theorem starts_step {s l s'} (hi : Starts s) (hs : step s l = some s') : Starts s' := by
  cases l with
  | tick d =>
    simp only [step] at hs
    split at hs
    · rename_i hp
      rw [Option.some.injEq] at hs; subst hs
      refine ⟨?_, ?_⟩
      · intro t h
        dsimp only at h ⊢
        have := hi.attaching t h
        unfold mayPass at hp
        rw [h] at hp
        dsimp only at hp
        omega
      · intro t a b h
        have := hi.running t a b h
        dsimp only; omega
    · cases hs
  | die =>
    simp only [step] at hs
    split at hs
    · rw [Option.some.injEq] at hs; subst hs
      exact ⟨hi.attaching, hi.running⟩
    · cases hs
  | begin =>
    simp only [step] at hs
    split at hs
    · rw [Option.some.injEq] at hs; subst hs
      refine ⟨?_, ?_⟩
      · intro t h
        cases h
        dsimp only
        omega
      · intro t a b h; cases h
    · cases hs
  | attach =>
    simp only [step] at hs
    split at hs
    · rename_i t hm
      rw [Option.some.injEq] at hs; subst hs
      refine ⟨?_, ?_⟩
      · intro t h; cases h
      · intro t' a b h
        cases h
        exact (hi.attaching t hm).1
    · cases hs
  | op o =>
    simp only [step] at hs
    split at hs
    · rename_i t e hm
      have hrun : ∀ a b, Starts { s with mode := .running t a b } := by
        intro a b
        refine ⟨?_, ?_⟩
        · intro t h; cases h
        · intro t' a b h
          cases h
          exact hi.running t _ _ hm
      cases o <;> (dsimp only at hs; rw [Option.some.injEq] at hs; subst hs)
      · exact hi
      · exact hrun _ _
      · exact hrun _ _
      · exact hi
      · exact hrun _ _
    · cases hs
  | notice =>
    simp only [step] at hs
    split at hs
    · rename_i t a e hm
      split at hs
      · split at hs <;>
          (rw [Option.some.injEq] at hs; subst hs
           exact ⟨fun t h => (by cases h), fun t a b h => (by cases h)⟩)
      · cases hs
    · cases hs
  | kill =>
    simp only [step] at hs
    split at hs
    · rw [Option.some.injEq] at hs; subst hs
      exact ⟨fun t h => (by cases h), fun t a b h => (by cases h)⟩
    · cases hs
  | dropped =>
    simp only [step] at hs
    split at hs
    · rw [Option.some.injEq] at hs; subst hs
      exact ⟨fun t h => (by cases h), fun t a b h => (by cases h)⟩
    · cases hs
  | drained =>
    simp only [step] at hs
    split at hs
    · split at hs
      · rw [Option.some.injEq] at hs; subst hs
        exact ⟨fun t h => (by cases h), fun t a b h => (by cases h)⟩
      · cases hs
    · cases hs
  | wake ok =>
    simp only [step] at hs
    split at hs
    · split at hs
      · split at hs <;>
          (rw [Option.some.injEq] at hs; subst hs
           exact ⟨fun t h => (by cases h), fun t a b h => (by cases h)⟩)
      · cases hs
    · cases hs

theorem alive_step {f s l s'} (hi : Alive f s) (hst : Starts s) (hs : step s l = some s') (hl : ¬ Ends l) :
    Alive (f + failed [l]) s' := by
  obtain ⟨hon, hne, hdb, hsp, hat, hru, hsl⟩ := hi
  cases l with
  | tick d =>
    simp only [step] at hs
    split at hs
    · rename_i hp
      rw [Option.some.injEq] at hs; subst hs
      unfold mayPass at hp
      refine ⟨hon, hne, by dsimp only; omega, ?_, ?_, ?_, ?_⟩
      · intro h1 h2
        dsimp only at h1 h2 ⊢
        rw [h1] at hp
        dsimp only at hp
        have := hsp h1 h2
        omega
      · intro t h1 h2
        dsimp only at h1 h2 ⊢
        rw [h1] at hp
        dsimp only at hp
        exact ⟨(hat t h1 h2).1, hp⟩
      · intro t a b h1 h2
        dsimp only at h1 h2 ⊢
        rw [h1] at hp
        dsimp only at hp
        have := hru t a b h1 h2
        have := hp h2
        omega
      · intro u h1
        dsimp only at h1 ⊢
        rw [h1] at hp
        dsimp only at hp
        have := hsl u h1
        simp only [failed]
        omega
    · cases hs
  | die =>
    simp only [step] at hs
    split at hs
    · rename_i hlive
      rw [Option.some.injEq] at hs; subst hs
      refine ⟨hon, hne, Nat.le_refl _, fun _ _ => Nat.le_refl _, ?_, ?_, ?_⟩
      · intro t h1 h2
        dsimp only at h1 ⊢
        exact hst.attaching t h1
      · intro t a b h1 h2
        dsimp only at h1 ⊢
        have := hst.running t a b h1
        omega
      · intro u h1
        have := (hsl u h1).1
        omega
    · cases hs
  | begin =>
    simp only [step] at hs
    split at hs
    · rename_i hm
      rw [Option.some.injEq] at hs; subst hs
      refine ⟨⟨by simp, by simp⟩, ?_, hdb, ?_, ?_, ?_, ?_⟩
      · intro t a b h; cases h
      · intro h; cases h
      · intro t h1 h2
        cases h1
        dsimp only at h2 ⊢
        have := hsp hm h2
        omega
      · intro t a b h; cases h
      · intro u h; cases h
    · cases hs
  | attach =>
    simp only [step] at hs
    split at hs
    · rename_i t hm
      rw [Option.some.injEq] at hs; subst hs
      refine ⟨⟨by simp, by simp⟩, ?_, hdb, ?_, ?_, ?_, ?_⟩
      · intro t a b h; cases h; rfl
      · intro h; cases h
      · intro t h; cases h
      · intro t' a b h1 h2
        cases h1
        dsimp only at h2 ⊢
        have := hat t hm h2
        omega
      · intro u h; cases h
    · cases hs
  | op o =>
    simp only [step] at hs
    split at hs
    · rename_i t e hm
      have he := hne t true e hm
      cases o with
      | ready =>
        dsimp only at hs; rw [Option.some.injEq] at hs; subst hs
        exact ⟨hon, hne, hdb, hsp, hat, hru, hsl⟩
      | other =>
        dsimp only at hs; rw [Option.some.injEq] at hs; subst hs
        exact ⟨hon, hne, hdb, hsp, hat, hru, hsl⟩
      | shutdownDone => exact absurd trivial hl
      | reconnect ok => exact absurd trivial hl
      | broken =>
        dsimp only at hs; rw [Option.some.injEq] at hs; subst hs
        refine ⟨⟨by simp, by simp⟩, ?_, hdb, ?_, ?_, ?_, ?_⟩
        · intro t a b h; cases h; rfl
        · intro h; cases h
        · intro t h; cases h
        · intro t' a b h1 h2
          cases h1
          exact hru t true e hm h2
        · intro u h; cases h
    · cases hs
  | notice =>
    simp only [step] at hs
    split at hs
    · rename_i t a e hm
      have he := hne t a e hm
      subst he
      by_cases h0 : s.live = 0
      · rw [if_pos h0, if_neg (by decide), Option.some.injEq] at hs; subst hs
        refine ⟨⟨by simp, by simp⟩, ?_, hdb, ?_, ?_, ?_, ?_⟩
        · intro t a b h; cases h
        · intro h; cases h
        · intro t h; cases h
        · intro t a b h; cases h
        · intro u h
          cases h
          dsimp only
          have h3 := hru t a false hm h0
          have h4 : s.now ≤ t + 120000 ∨ s.now = s.died := h3.2.2
          refine ⟨h0, by omega, ?_⟩
          simp only [failed]
          have : pause (s.now - t) = 60000 ∧ s.now - t < 60000 ∨ pause (s.now - t) = 3000 := by
            unfold pause
            by_cases hx : s.now - t < 60000
            · left; exact ⟨if_pos hx, hx⟩
            · right; exact if_neg hx
          omega
      · rw [if_neg h0] at hs; cases hs
    · cases hs
  | kill => exact absurd trivial hl
  | dropped => exact absurd trivial hl
  | drained =>
    simp only [step] at hs
    split at hs
    · rename_i hm
      exact absurd hm hon.2
    · cases hs
  | wake ok =>
    simp only [step] at hs
    split at hs
    · rename_i till hm
      have hz := hsl till hm
      by_cases ht : till ≤ s.now
      · rw [if_pos ht] at hs
        cases ok with
        | true =>
          rw [if_pos rfl, Option.some.injEq] at hs; subst hs
          refine ⟨⟨by simp, by simp⟩, ?_, hdb, ?_, ?_, ?_, ?_⟩
          · intro t a b h; cases h
          · intro _ h; dsimp only at h; omega
          · intro t h; cases h
          · intro t a b h; cases h
          · intro u h; cases h
        | false =>
          rw [if_neg (by decide), Option.some.injEq] at hs; subst hs
          refine ⟨⟨by simp, by simp⟩, ?_, hdb, ?_, ?_, ?_, ?_⟩
          · intro t a b h; cases h
          · intro h; cases h
          · intro t h; cases h
          · intro t a b h; cases h
          · intro u h
            cases h
            dsimp only
            simp only [failed]
            unfold retry
            omega
      · rw [if_neg ht] at hs; cases hs
    · cases hs

theorem failed_cons (l : Lbl) (ls : List Lbl) : failed (l :: ls) = failed [l] + failed ls := by
  cases l with
  | wake ok => cases ok <;> simp [failed]; omega
  | _ => simp [failed]

theorem alive_run : ∀ {ls f s s'}, Alive f s → Starts s → (∀ l ∈ ls, ¬ Ends l) → run s ls = some s' →
    Alive (f + failed ls) s'
  | [], f, s, s', hi, _, _, h => by simp only [run, Option.some.injEq] at h; rw [← h]; exact hi
  | l :: ls, f, s, s', hi, hst, hl, h => by
    simp only [run] at h
    cases hs : step s l with
    | none => rw [hs] at h; cases h
    | some s1 =>
      rw [hs] at h
      have := alive_run (alive_step hi hst hs (hl l List.mem_cons_self)) (starts_step hst hs)
        (fun x hx => hl x (List.mem_cons_of_mem _ hx)) h
      rw [failed_cons l ls, ← Nat.add_assoc]
      exact this

theorem alive_init : Alive 0 init ∧ Starts init := by
  refine ⟨⟨⟨by simp [init], by simp [init]⟩, ?_, by decide, ?_, ?_, ?_, ?_⟩, ?_, ?_⟩ <;>
    (intros; simp_all [init])

/-- **C54**: a process that nobody asked to end is supervised for ever: at every moment it is running, or it
died at most 123 seconds ago, plus three minutes for every failed attempt to start it. -/
theorem outage_bounded (ls : List Lbl) (s : St) (h : run init ls = some s) (hl : ∀ l ∈ ls, ¬ Ends l) :
    s.live = 1 ∨ s.now ≤ s.died + 123000 + failed ls * 180000 := by
  have hi := alive_run alive_init.1 alive_init.2 hl h
  have h1 := one_process ls s h
  rw [Nat.zero_add] at hi
  by_cases h0 : s.live = 0
  · right
    cases hm : s.mode with
    | spawned => have := hi.spawned hm h0; omega
    | attaching t => have := hi.attaching t hm h0; omega
    | running t a b => have := hi.running t a b hm h0; omega
    | draining => exact absurd hm hi.on.2
    | sleeping u => have := hi.sleeping u hm; omega
    | returned => exact absurd hm hi.on.1
  · left; omega

/-- ... and the task is not stuck: from every such state the process can be running again. -/
theorem restart_possible (ls : List Lbl) (s : St) (h : run init ls = some s) (hl : ∀ l ∈ ls, ¬ Ends l) :
    ∃ more s', run s more = some s' ∧ (∀ l ∈ more, ¬ Ends l) ∧ s'.live = 1 := by
  have hi := alive_run alive_init.1 alive_init.2 hl h
  have h1 := one_process ls s h
  by_cases h0 : s.live = 0
  · -- from the pause
    have fromSleep' : ∀ s : St, s.live = 0 → ∀ u, s.mode = .sleeping u →
        ∃ more s', run s more = some s' ∧ (∀ l ∈ more, ¬ Ends l) ∧ s'.live = 1 := by
      intro s h0 u hm
      by_cases hu : s.now ≤ u
      · have hp : mayPass s (u - s.now) := by unfold mayPass; rw [hm]; dsimp only; omega
        refine ⟨[.tick (u - s.now), .wake true], { s with
            now := s.now + (u - s.now)
            mode := .spawned
            live := s.live + 1
            starts := (s.now + (u - s.now)) :: s.starts }, ?_, by simp [Ends], by dsimp only; omega⟩
        have h2 : u ≤ s.now + (u - s.now) := by omega
        simp [run, step, if_pos hp, hm, h2]
      · refine ⟨[.wake true], { s with
            mode := .spawned
            live := s.live + 1
            starts := s.now :: s.starts }, ?_, by simp [Ends], by dsimp only; omega⟩
        have h2 : u ≤ s.now := by omega
        simp [run, step, hm, h2]
    have fromRun : ∀ s : St, s.live = 0 → ∀ t a, s.mode = .running t a false →
        ∃ more s', run s more = some s' ∧ (∀ l ∈ more, ¬ Ends l) ∧ s'.live = 1 := by
      intro s h0 t a hm
      obtain ⟨more, s', hr, he, hv⟩ := fromSleep' { s with mode := .sleeping (s.now + pause (s.now - t)) } h0 _ rfl
      refine ⟨.notice :: more, s', ?_, ?_, hv⟩
      · simp only [run, step, hm, if_pos h0]
        exact hr
      · intro l hl
        rcases List.mem_cons.mp hl with rfl | hl
        · simp [Ends]
        · exact he l hl
    have fromAttach : ∀ s : St, s.live = 0 → ∀ t, s.mode = .attaching t →
        ∃ more s', run s more = some s' ∧ (∀ l ∈ more, ¬ Ends l) ∧ s'.live = 1 := by
      intro s h0 t hm
      obtain ⟨more, s', hr, he, hv⟩ := fromRun { s with mode := .running t true false } h0 t true rfl
      refine ⟨.attach :: more, s', ?_, ?_, hv⟩
      · simp only [run, step, hm]
        exact hr
      · intro l hl
        rcases List.mem_cons.mp hl with rfl | hl
        · simp [Ends]
        · exact he l hl
    cases hm : s.mode with
    | spawned =>
      obtain ⟨more, s', hr, he, hv⟩ := fromAttach { s with mode := .attaching s.now } h0 _ rfl
      refine ⟨.begin :: more, s', ?_, ?_, hv⟩
      · simp only [run, step, hm]
        exact hr
      · intro l hl
        rcases List.mem_cons.mp hl with rfl | hl
        · simp [Ends]
        · exact he l hl
    | attaching t => exact fromAttach s h0 t hm
    | running t a b => exact fromRun s h0 t a (by rw [hm, hi.notEnded t a b hm])
    | draining => exact absurd hm hi.on.2
    | sleeping u => exact fromSleep' s h0 u hm
    | returned => exact absurd hm hi.on.1
  · exact ⟨[], s, rfl, by simp, by omega⟩

/-! ## No resurrection -/

/-- The task is on its way out. -/
def Leaving (s : St) : Prop :=
  s.mode = .returned ∨ s.mode = .draining ∨ ∃ t, s.mode = .running t false true

theorem leaving_step {s l s'} (hi : Leaving s) (hs : step s l = some s') :
    Leaving s' ∧ s'.starts = s.starts ∧ s'.live ≤ s.live := by
  cases l with
  | tick d =>
    simp only [step] at hs
    split at hs
    · rw [Option.some.injEq] at hs; subst hs; exact ⟨hi, rfl, Nat.le_refl _⟩
    · cases hs
  | die =>
    simp only [step] at hs
    split at hs
    · rw [Option.some.injEq] at hs; subst hs; exact ⟨hi, rfl, Nat.sub_le _ _⟩
    · cases hs
  | begin => rcases hi with h | h | ⟨t, h⟩ <;> simp [step, h] at hs
  | attach => rcases hi with h | h | ⟨t, h⟩ <;> simp [step, h] at hs
  | op o => rcases hi with h | h | ⟨t, h⟩ <;> simp [step, h] at hs
  | notice =>
    rcases hi with h | h | ⟨t, h⟩
    · simp [step, h] at hs
    · simp [step, h] at hs
    · simp only [step, h] at hs
      split at hs
      · rw [if_pos trivial, Option.some.injEq] at hs; subst hs; exact ⟨Or.inl rfl, rfl, Nat.le_refl _⟩
      · cases hs
  | kill =>
    rcases hi with h | h | ⟨t, h⟩
    · simp [step, h] at hs
    · simp [step, h] at hs
    · simp only [step, h, Option.some.injEq] at hs
      subst hs; exact ⟨Or.inl rfl, rfl, Nat.zero_le _⟩
  | dropped =>
    rcases hi with h | h | ⟨t, h⟩
    · simp [step, h] at hs
    · simp [step, h] at hs
    · simp only [step, h, Option.some.injEq] at hs
      subst hs; exact ⟨Or.inr (Or.inl rfl), rfl, Nat.le_refl _⟩
  | drained =>
    rcases hi with h | h | ⟨t, h⟩
    · simp [step, h] at hs
    · simp only [step, h] at hs
      split at hs
      · rw [Option.some.injEq] at hs; subst hs; exact ⟨Or.inl rfl, rfl, Nat.le_refl _⟩
      · cases hs
    · simp [step, h] at hs
  | wake ok => rcases hi with h | h | ⟨t, h⟩ <;> simp [step, h] at hs

theorem leaving_run : ∀ {ls s s'}, Leaving s → run s ls = some s' →
    Leaving s' ∧ s'.starts = s.starts ∧ s'.live ≤ s.live
  | [], s, s', hi, h => by simp only [run, Option.some.injEq] at h; rw [← h]; exact ⟨hi, rfl, Nat.le_refl _⟩
  | l :: ls, s, s', hi, h => by
    simp only [run] at h
    cases hs : step s l with
    | none => rw [hs] at h; cases h
    | some s1 =>
      rw [hs] at h
      obtain ⟨h1, h2, h3⟩ := leaving_step hi hs
      obtain ⟨h4, h5, h6⟩ := leaving_run h1 h
      exact ⟨h4, h5.trans h2, Nat.le_trans h6 h3⟩

/-- **C54**: after the process announced the end of its shutdown, was replaced at its own request, or was killed
or released by the manager, it is never started again. -/
theorem no_resurrection (s s1 s2 : St) (l : Lbl) (hl : Ends l) (hs : step s l = some s1) (ls : List Lbl)
    (hrun : run s1 ls = some s2) : s2.starts = s.starts ∧ s2.live ≤ s.live := by
  have key : Leaving s1 ∧ s1.starts = s.starts ∧ s1.live ≤ s.live := by
    cases l with
    | op o =>
      cases o with
      | shutdownDone =>
        simp only [step] at hs
        split at hs
        · rw [Option.some.injEq] at hs; subst hs; exact ⟨Or.inr (Or.inr ⟨_, rfl⟩), rfl, Nat.le_refl _⟩
        · cases hs
      | reconnect ok =>
        simp only [step] at hs
        split at hs
        · rw [Option.some.injEq] at hs; subst hs; exact ⟨Or.inr (Or.inr ⟨_, rfl⟩), rfl, Nat.le_refl _⟩
        · cases hs
      | _ => exact absurd hl (by simp [Ends])
    | kill =>
      simp only [step] at hs
      split at hs
      · rw [Option.some.injEq] at hs; subst hs; exact ⟨Or.inl rfl, rfl, Nat.zero_le _⟩
      · cases hs
    | dropped =>
      simp only [step] at hs
      split at hs
      · rw [Option.some.injEq] at hs; subst hs; exact ⟨Or.inr (Or.inl rfl), rfl, Nat.le_refl _⟩
      · cases hs
    | _ => exact absurd hl (by simp [Ends])
  obtain ⟨_, h2, h3⟩ := leaving_run key.1 hrun
  exact ⟨h2.trans key.2.1, Nat.le_trans h3 key.2.2⟩

/-- **C54**: killing leaves no process behind and ends the task. -/
theorem killed (s s1 : St) (hs : step s .kill = some s1) : s1.live = 0 ∧ s1.mode = .returned := by
  simp only [step] at hs
  split at hs
  · rw [Option.some.injEq] at hs; subst hs; exact ⟨rfl, rfl⟩
  · cases hs

/-- **C54**: the pause after a crash: a minute if the process lived less than a minute, else three seconds. -/
theorem pause_after_crash (s s1 : St) (hs : step s .notice = some s1) (t : Nat) (a : Bool)
    (hm : s.mode = .running t a false) :
    s1.mode = .sleeping (s.now + if s.now - t < 60000 then 60000 else 3000) := by
  simp only [step, hm] at hs
  split at hs
  · rw [if_neg (by decide), Option.some.injEq] at hs; subst hs; rfl
  · cases hs

/-! ## Cases -/

/-- A process crashes after ten seconds, one attempt to start it fails, the next one succeeds; the second process
runs for two minutes, is asked to end, announces it and ends: it is not started again. -/
theorem supervise_example :
    ∃ s, run init [.begin, .attach, .op .ready, .tick 10000, .die, .notice, .tick 60000, .wake false,
        .tick 180000, .wake true, .begin, .attach, .op .ready, .tick 120000, .op .shutdownDone, .die,
        .notice, .tick 1000000] = some s ∧ s.starts = [250000, 0] ∧ s.live = 0 ∧ s.mode = .returned :=
  ⟨⟨1370000, .returned, 0, 370000, [250000, 0]⟩, by decide +kernel⟩

/-- The same run up to the restart meets the hypotheses of `outage_bounded`. -/
theorem supervise_example_calm :
    ∃ s, run init [.begin, .attach, .op .ready, .tick 10000, .die, .notice, .tick 60000, .wake false,
        .tick 100000] = some s ∧ s.live = 0 ∧ s.now = 170000 ∧ s.died = 10000 :=
  ⟨⟨170000, .sleeping 250000, 0, 10000, [0]⟩, by decide +kernel⟩

/-- **What goes wrong**: a process asks for a replacement, the replacement cannot be started, and from then on
nobody supervises the process: when it ends, it stays down for ever. -/
theorem reconnect_failure_unsupervised :
    ∃ s, run init [.begin, .attach, .op .ready, .op (.reconnect false), .tick 5000, .die, .notice] = some s ∧
      s.live = 0 ∧ s.mode = .returned ∧
      ∀ more s', run s more = some s' → s'.live = 0 ∧ s'.starts = [0] := by
  refine ⟨_, rfl, rfl, rfl, ?_⟩
  intro more s' h
  obtain ⟨_, h2, h3⟩ := leaving_run (Or.inl rfl) h
  exact ⟨Nat.le_zero.mp h3, h2⟩

/-- **What goes wrong**: a process that was asked to shut down and ends without announcing it (it crashes on the
way) is started again, if its end is noticed before the release of the kill channel. -/
theorem crash_while_stopping_restarts :
    ∃ s, run init [.begin, .attach, .op .ready, .tick 100000, .op .broken, .die, .notice, .tick 3000, .wake true] =
      some s ∧ s.live = 1 ∧ s.starts = [103000, 0] :=
  ⟨⟨103000, .spawned, 1, 100000, [103000, 0]⟩, by decide +kernel⟩

end Verif.Manager.Supervise
