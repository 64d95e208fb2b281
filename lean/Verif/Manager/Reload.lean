import Verif.Common
/-!
# C53: reloading without interruption (bin/src/manager.rs:154-197, 235-268, 307-383, 479-495)

On a reload the running ("old") manager starts a second ("new") manager with the same arguments. The new manager
starts its processes group by group (servers, clients, connectors), each group with a counter of its own, and
writes an operation to its standard output whenever one of its processes reports that it is ready. The old
manager reads these operations and asks its own processes to shut down.
-/
set_option linter.unusedSimpArgs false
set_option linter.unusedVariables false
namespace Verif.Manager.Reload

/-- `MangerOP` (bin/src/manager.rs:644-647). -/
inductive Op where
  | ready (k : Nat)
  | done
deriving DecidableEq, Repr

inductive Phase where
  /-- in the loop of `process_signal` -/
  | reading
  /-- after it: bin/src/manager.rs:192-195 -/
  | draining
  | finished
deriving DecidableEq, Repr

/-- Both managers. Configurations are numbers. -/
structure St where
  /-- new manager: `ready_done_counter` of each group (bin/src/manager.rs:350) -/
  cnt : Nat → Nat
  /-- number of calls of `run` so far -/
  groups : Nat
  /-- new manager's processes that have not reported ready since they were started: (configuration, group) -/
  waiting : List (Nat × Nat)
  /-- the other ones -/
  up : List (Nat × Nat)
  /-- configurations whose new process has reported ready (at least once) -/
  ready : List Nat
  /-- the new manager's standard output, not yet read -/
  pipe : List Op
  /-- keys of the old manager's `cmds` -/
  old : List Nat
  /-- configurations whose old process was asked to shut down -/
  asked : List Nat
  phase : Phase

/-- `AtomicUsize::fetch_sub(1)` wraps around. -/
def dec (n : Nat) : Nat := if n = 0 then 18446744073709551615 else n - 1

inductive Lbl where
  /-- the new process of configuration `k`, group `g`, reports ready -/
  | ready (k g : Nat)
  /-- a new process that has not reported ready crashes and is started again (bin/src/manager.rs:421-453) -/
  | restartWaiting (k g : Nat)
  /-- the same for one that has -/
  | restartUp (k g : Nat)
  /-- a new process asks for being replaced (`OP::Reconnect`, bin/src/manager.rs:286-294): a `run` of its own -/
  | reconnect (k g : Nat)
  /-- the old manager reads an operation -/
  | read
  /-- 120 s have passed, or reading fails (bin/src/manager.rs:182-190) -/
  | giveUp
  /-- bin/src/manager.rs:193-195 -/
  | drain (k : Nat)
  | finish
  /-- an old process crashed and was started again: bin/src/manager.rs:362 inserts it -/
  | restartOld (k : Nat)
deriving DecidableEq, Repr

/-- One step; `none` if it is not possible. -/
def step (s : St) : Lbl → Option St
  | .ready k g =>
    if (k, g) ∈ s.waiting then
      some { s with
        cnt := fun x => if x = g then dec (s.cnt g) else s.cnt x
        waiting := s.waiting.erase (k, g)
        up := (k, g) :: s.up
        ready := k :: s.ready
        pipe := s.pipe ++ [if s.cnt g = 1 then .done else .ready k] }
    else none
  | .restartWaiting k g => if (k, g) ∈ s.waiting then some s else none
  | .restartUp k g =>
    if (k, g) ∈ s.up then some { s with up := s.up.erase (k, g), waiting := (k, g) :: s.waiting } else none
  | .reconnect k g =>
    if (k, g) ∈ s.up ∨ (k, g) ∈ s.waiting then
      some { s with
        cnt := fun x => if x = s.groups then 1 else s.cnt x
        groups := s.groups + 1
        up := s.up.erase (k, g)
        waiting := (k, s.groups) :: s.waiting.erase (k, g) }
    else none
  | .read =>
    match s.phase, s.pipe with
    | .reading, .ready k :: r =>
      if k ∈ s.old then some { s with pipe := r, old := s.old.erase k, asked := k :: s.asked }
      else some { s with pipe := r }
    | .reading, .done :: r => some { s with pipe := r, phase := .draining }
    | _, _ => none
  | .giveUp => if s.phase = .reading then some { s with phase := .draining } else none
  | .drain k =>
    if s.phase = .draining ∧ k ∈ s.old then some { s with old := s.old.erase k, asked := k :: s.asked }
    else none
  | .finish => if s.phase = .draining ∧ s.old = [] then some { s with phase := .finished } else none
  | .restartOld k => if k ∈ s.old then none else some { s with old := k :: s.old }

def run (s : St) : List Lbl → Option St
  | [] => some s
  | l :: ls =>
    match step s l with
    | none => none
    | some s => run s ls

/-- The processes of the groups, numbered from `i`. -/
def procs (i : Nat) : List (List Nat) → List (Nat × Nat)
  | [] => []
  | g :: gs => g.map (fun k => (k, i)) ++ procs (i + 1) gs

/-- bin/src/manager.rs:479-495: `run` is called for each group that is not empty; `old0` are the configurations the old
manager runs. -/
def init (gs : List (List Nat)) (old0 : List Nat) : St :=
  { cnt := fun i => (gs.getD i []).length
    groups := gs.length
    waiting := procs 0 gs
    up := []
    ready := []
    pipe := []
    old := old0
    asked := []
    phase := .reading }

/-! ## Specification -/

/-- Some group of the new manager is ready completely. -/
def GroupReady (gs : List (List Nat)) (s : St) : Prop := ∃ g ∈ gs, ∀ k ∈ g, k ∈ s.ready

/-- A step in which the old manager does not give up and, as long as no group is complete, no process of the new
manager that was ready is replaced. -/
def CalmStep (gs : List (List Nat)) (s : St) (l : Lbl) : Prop :=
  l ≠ .giveUp ∧ ((∃ k g, l = .restartUp k g ∨ l = .reconnect k g) → GroupReady gs s)

/-- In this run the old manager does not give up, and no process of the new manager that was ready is replaced
before a group is complete. -/
def Calm (gs : List (List Nat)) : St → List Lbl → Prop
  | _, [] => True
  | s, l :: ls =>
    CalmStep gs s l ∧
    ∀ s', step s l = some s' → Calm gs s' ls

/-! ## Invariant -/

structure Pre (gs : List (List Nat)) (s : St) : Prop where
  reading : s.phase = .reading
  noDone : Op.done ∉ s.pipe
  cover : ∀ g k, k ∈ gs.getD g [] → k ∈ s.ready ∨ (k, g) ∈ s.waiting
  cnt : ∀ g, s.cnt g = s.waiting.countP (fun x => decide (x.2 = g))
  valid : ∀ x ∈ s.waiting, x.2 < gs.length

structure Inv (gs : List (List Nat)) (s : St) : Prop where
  main : GroupReady gs s ∨ Pre gs s
  pipe : ∀ k, Op.ready k ∈ s.pipe → k ∈ s.ready
  asked : ∀ k ∈ s.asked, k ∈ s.ready ∨ GroupReady gs s

theorem mem_procs (i : Nat) (gs : List (List Nat)) (k g : Nat) :
    (k, g) ∈ procs i gs ↔ i ≤ g ∧ k ∈ gs.getD (g - i) [] := by
  induction gs generalizing i with
  | nil => simp [procs]
  | cons a gs ih =>
    rw [procs, List.mem_append, ih]
    constructor
    · rintro (h | ⟨h1, h2⟩)
      · obtain ⟨k', hk, e⟩ := List.mem_map.mp h
        cases e
        exact ⟨Nat.le_refl _, by simpa using hk⟩
      · refine ⟨by omega, ?_⟩
        have : g - i = (g - (i + 1)) + 1 := by omega
        rw [this, List.getD_cons_succ]; exact h2
    · rintro ⟨h1, h2⟩
      by_cases hgi : g = i
      · left
        subst hgi
        simp at h2
        exact List.mem_map.mpr ⟨k, h2, rfl⟩
      · right
        refine ⟨by omega, ?_⟩
        have : g - i = (g - (i + 1)) + 1 := by omega
        rw [this, List.getD_cons_succ] at h2; exact h2

theorem countP_procs (i : Nat) (gs : List (List Nat)) (g : Nat) :
    (procs i gs).countP (fun x => decide (x.2 = g)) = if i ≤ g then (gs.getD (g - i) []).length else 0 := by
  induction gs generalizing i with
  | nil => simp [procs]
  | cons a gs ih =>
    rw [procs, List.countP_append, ih, List.countP_map]
    have hc : List.countP ((fun x => decide (x.2 = g)) ∘ fun k => (k, i)) a = if i = g then a.length else 0 := by
      by_cases h : i = g
      · rw [if_pos h]
        exact List.countP_eq_length.mpr (by intro x _; simp [h])
      · rw [if_neg h]
        exact List.countP_eq_zero.mpr (by intro x _; simp [h])
    rw [hc]
    by_cases h : i = g
    · subst h
      rw [if_pos rfl, if_neg (by omega), if_pos (Nat.le_refl _)]
      simp
    · rw [if_neg h]
      by_cases h2 : i + 1 ≤ g
      · rw [if_pos h2, if_pos (by omega)]
        have : g - i = (g - (i + 1)) + 1 := by omega
        rw [this, List.getD_cons_succ]; omega
      · rw [if_neg h2, if_neg (by omega)]

theorem getD_lt (gs : List (List Nat)) (g : Nat) (h : g < gs.length) : gs.getD g [] = gs[g] := by
  rw [List.getD_eq_getElem?_getD, List.getElem?_eq_getElem h]; rfl

theorem inv_init (gs : List (List Nat)) (old0 : List Nat) : Inv gs (init gs old0) := by
  refine ⟨Or.inr ⟨rfl, by simp [init], ?_, ?_, ?_⟩, by simp [init], by simp [init]⟩
  · intro g k h
    right
    exact (mem_procs 0 gs k g).mpr ⟨by omega, h⟩
  · intro g
    show (gs.getD g []).length = _
    have := countP_procs 0 gs g
    rw [if_pos (by omega)] at this
    exact this.symm
  · intro x hx
    obtain ⟨k, g⟩ := x
    have h := ((mem_procs 0 gs k g).mp hx).2
    simp only [Nat.sub_zero] at h
    by_cases hg : g < gs.length
    · exact hg
    · rw [List.getD_eq_getElem?_getD, List.getElem?_eq_none (by omega)] at h
      cases h

theorem GroupReady.mono {gs s s'} (h : GroupReady gs s) (hr : ∀ k ∈ s.ready, k ∈ s'.ready) :
    GroupReady gs s' := by
  obtain ⟨g, hg, hk⟩ := h
  exact ⟨g, hg, fun k hkg => hr k (hk k hkg)⟩

theorem countP_erase_mem (l : List (Nat × Nat)) (k g x : Nat) (h : (k, g) ∈ l) :
    (l.erase (k, g)).countP (fun y => decide (y.2 = x)) =
      if x = g then l.countP (fun y => decide (y.2 = x)) - 1 else l.countP (fun y => decide (y.2 = x)) := by
  induction l with
  | nil => cases h
  | cons a l ih =>
    by_cases ha : a = (k, g)
    · subst ha
      rw [List.erase_cons_head]
      by_cases hx : x = g
      · subst hx; simp
      · have : ¬ g = x := fun e => hx e.symm
        simp [hx, this]
    · have hm : (k, g) ∈ l := by
        rcases List.mem_cons.mp h with h | h
        · exact absurd h.symm ha
        · exact h
      rw [List.erase_cons_tail (by simpa using ha), List.countP_cons, ih hm, List.countP_cons]
      by_cases hx : x = g
      · rw [if_pos hx, if_pos hx]
        have : 0 < l.countP (fun y => decide (y.2 = x)) :=
          List.countP_pos_iff.mpr ⟨(k, g), hm, by simp [hx]⟩
        omega
      · rw [if_neg hx, if_neg hx]

/-- Every step of a calm run keeps the invariant. -/
theorem inv_step {gs s l s'} (hi : Inv gs s) (hs : step s l = some s')
    (hg : CalmStep gs s l) : Inv gs s' := by
  cases l with
  | ready k g =>
    simp only [step] at hs
    by_cases hm : (k, g) ∈ s.waiting
    · rw [if_pos hm, Option.some.injEq] at hs
      have hready : ∀ x ∈ s.ready, x ∈ s'.ready := by
        intro x hx; rw [← hs]; exact List.mem_cons_of_mem _ hx
      have hk : k ∈ s'.ready := by rw [← hs]; exact List.mem_cons_self
      have hpipe : ∀ x, Op.ready x ∈ s'.pipe → x ∈ s'.ready := by
        intro x hx
        rw [← hs] at hx
        dsimp only at hx
        rcases List.mem_append.mp hx with hx | hx
        · exact hready x (hi.pipe x hx)
        · rw [List.mem_singleton] at hx
          by_cases h1 : s.cnt g = 1
          · rw [if_pos h1] at hx; cases hx
          · rw [if_neg h1] at hx; cases hx; exact hk
      have hasked : ∀ x ∈ s'.asked, x ∈ s'.ready ∨ GroupReady gs s' := by
        intro x hx
        have hx' : x ∈ s.asked := by rw [← hs] at hx; exact hx
        rcases hi.asked x hx' with h | h
        · exact Or.inl (hready x h)
        · exact Or.inr (h.mono hready)
      refine ⟨?_, hpipe, hasked⟩
      rcases hi.main with h | h
      · exact Or.inl (h.mono hready)
      · have hcov : ∀ g' k', k' ∈ gs.getD g' [] → k' ∈ s'.ready ∨ (k', g') ∈ s'.waiting := by
          intro g' k' hk'
          rcases h.cover g' k' hk' with hc | hc
          · exact Or.inl (hready k' hc)
          · by_cases he : (k', g') = (k, g)
            · cases he; exact Or.inl hk
            · right
              rw [← hs]
              exact (List.mem_erase_of_ne he).mpr hc
        have hpos : 0 < s.cnt g := by
          rw [h.cnt g]
          exact List.countP_pos_iff.mpr ⟨(k, g), hm, by simp⟩
        by_cases h1 : s.cnt g = 1
        · left
          have hlt := h.valid _ hm
          refine ⟨gs.getD g [], ?_, ?_⟩
          · have : gs.getD g [] = gs[g] := by rw [getD_lt gs g hlt]
            rw [this]; exact List.getElem_mem hlt
          · intro k' hk'
            rcases hcov g k' hk' with hc | hc
            · exact hc
            · exfalso
              have h2 : 0 < s'.waiting.countP (fun x => decide (x.2 = g)) :=
                List.countP_pos_iff.mpr ⟨(k', g), hc, by simp⟩
              rw [← hs] at h2
              dsimp only at h2
              rw [countP_erase_mem _ _ _ _ hm, if_pos rfl, ← h.cnt g, h1] at h2
              omega
        · right
          refine ⟨by rw [← hs]; exact h.reading, ?_, hcov, ?_, ?_⟩
          · rw [← hs]
            dsimp only
            rw [if_neg h1]
            intro hd
            rcases List.mem_append.mp hd with hd | hd
            · exact h.noDone hd
            · rw [List.mem_singleton] at hd; cases hd
          · intro x
            rw [← hs]
            dsimp only
            rw [countP_erase_mem _ _ _ _ hm]
            by_cases hx : x = g
            · subst hx
              rw [if_pos rfl, if_pos rfl, ← h.cnt x]
              unfold dec
              rw [if_neg (by omega)]
            · rw [if_neg hx, if_neg hx]; exact h.cnt x
          · intro x hx
            rw [← hs] at hx
            exact h.valid x (List.mem_of_mem_erase hx)
    · rw [if_neg hm] at hs; cases hs
  | restartWaiting k g =>
    simp only [step] at hs
    by_cases hm : (k, g) ∈ s.waiting
    · rw [if_pos hm, Option.some.injEq] at hs
      rw [← hs]; exact hi
    · rw [if_neg hm] at hs; cases hs
  | restartUp k g =>
    simp only [step] at hs
    by_cases hm : (k, g) ∈ s.up
    · rw [if_pos hm, Option.some.injEq] at hs
      rw [← hs]
      exact ⟨Or.inl (hg.2 ⟨k, g, by simp⟩), hi.pipe, hi.asked⟩
    · rw [if_neg hm] at hs; cases hs
  | reconnect k g =>
    simp only [step] at hs
    by_cases hm : (k, g) ∈ s.up ∨ (k, g) ∈ s.waiting
    · rw [if_pos hm, Option.some.injEq] at hs
      rw [← hs]
      exact ⟨Or.inl (hg.2 ⟨k, g, by simp⟩), hi.pipe, hi.asked⟩
    · rw [if_neg hm] at hs; cases hs
  | read =>
    simp only [step] at hs
    cases hp : s.pipe with
    | nil => rw [hp] at hs; cases hph : s.phase <;> rw [hph] at hs <;> cases hs
    | cons o r =>
      rw [hp] at hs
      cases hph : s.phase with
      | draining => rw [hph] at hs; cases o <;> cases hs
      | finished => rw [hph] at hs; cases o <;> cases hs
      | reading =>
        rw [hph] at hs
        cases o with
        | ready k =>
          dsimp only at hs
          have hk : k ∈ s.ready := hi.pipe k (by rw [hp]; exact List.mem_cons_self)
          have hsub : ∀ x ∈ r, x ∈ s.pipe := fun x hx => by rw [hp]; exact List.mem_cons_of_mem _ hx
          by_cases ho : k ∈ s.old
          · rw [if_pos ho, Option.some.injEq] at hs
            rw [← hs]
            refine ⟨?_, fun x hx => hi.pipe x (hsub _ hx), ?_⟩
            · rcases hi.main with h | h
              · exact Or.inl h
              · exact Or.inr ⟨rfl, fun hd => h.noDone (hsub _ hd), h.cover, h.cnt, h.valid⟩
            · intro x hx
              rcases List.mem_cons.mp hx with rfl | hx
              · exact Or.inl hk
              · exact hi.asked x hx
          · rw [if_neg ho, Option.some.injEq] at hs
            rw [← hs]
            refine ⟨?_, fun x hx => hi.pipe x (hsub _ hx), hi.asked⟩
            rcases hi.main with h | h
            · exact Or.inl h
            · exact Or.inr ⟨rfl, fun hd => h.noDone (hsub _ hd), h.cover, h.cnt, h.valid⟩
        | done =>
          dsimp only at hs
          rw [Option.some.injEq] at hs
          have hgr : GroupReady gs s := by
            rcases hi.main with h | h
            · exact h
            · exact absurd (by rw [hp]; exact List.mem_cons_self) h.noDone
          rw [← hs]
          refine ⟨Or.inl hgr, fun x hx => hi.pipe x ?_, hi.asked⟩
          rw [hp]; exact List.mem_cons_of_mem _ hx
  | giveUp => exact absurd rfl hg.1
  | drain k =>
    simp only [step] at hs
    by_cases hc : s.phase = .draining ∧ k ∈ s.old
    · rw [if_pos hc, Option.some.injEq] at hs
      have hgr : GroupReady gs s := by
        rcases hi.main with h | h
        · exact h
        · rw [h.reading] at hc; cases hc.1
      rw [← hs]
      refine ⟨Or.inl hgr, hi.pipe, ?_⟩
      intro x _
      exact Or.inr hgr
    · rw [if_neg hc] at hs; cases hs
  | finish =>
    simp only [step] at hs
    by_cases hc : s.phase = .draining ∧ s.old = []
    · rw [if_pos hc, Option.some.injEq] at hs
      have hgr : GroupReady gs s := by
        rcases hi.main with h | h
        · exact h
        · rw [h.reading] at hc; cases hc.1
      rw [← hs]
      exact ⟨Or.inl hgr, hi.pipe, hi.asked⟩
    · rw [if_neg hc] at hs; cases hs
  | restartOld k =>
    simp only [step] at hs
    by_cases hc : k ∈ s.old
    · rw [if_pos hc] at hs; cases hs
    · rw [if_neg hc, Option.some.injEq] at hs
      rw [← hs]
      refine ⟨?_, hi.pipe, hi.asked⟩
      rcases hi.main with h | h
      · exact Or.inl h
      · exact Or.inr ⟨h.reading, h.noDone, h.cover, h.cnt, h.valid⟩

theorem inv_run {gs} : ∀ {ls s s'}, Inv gs s → Calm gs s ls → run s ls = some s' → Inv gs s'
  | [], s, s', hi, _, h => by simp only [run, Option.some.injEq] at h; rw [← h]; exact hi
  | l :: ls, s, s', hi, hc, h => by
    simp only [run] at h
    cases hs : step s l with
    | none => rw [hs] at h; cases h
    | some s1 =>
      rw [hs] at h
      exact inv_run (inv_step hi hs hc.1) (hc.2 s1 hs) h

/-- **C53, several groups** (partial): in a calm run an old process is asked to shut down only after the new
process of its configuration reported ready, or after all processes of one group did. Missing for the full
claim: with more than one group the second alternative is not enough (`two_groups_interrupt`). -/
theorem reload_hitless_groups_partial (gs : List (List Nat)) (old0 : List Nat) (ls : List Lbl) (s : St)
    (hrun : run (init gs old0) ls = some s) (hcalm : Calm gs (init gs old0) ls)
    (k : Nat) (hk : k ∈ s.asked) :
    k ∈ s.ready ∨ ∃ g ∈ gs, ∀ j ∈ g, j ∈ s.ready :=
  (inv_run (inv_init gs old0) hcalm hrun).asked k hk

/-- **C53**: if all configurations are of one kind, in a calm run every old process keeps serving until the new
process of the same configuration is ready; the processes of removed configurations until all new ones are. -/
theorem reload_hitless (cfgs : List Nat) (old0 : List Nat) (ls : List Lbl) (s : St)
    (hrun : run (init [cfgs] old0) ls = some s) (hcalm : Calm [cfgs] (init [cfgs] old0) ls)
    (k : Nat) (hk : k ∈ s.asked) :
    (k ∈ cfgs → k ∈ s.ready) ∧ (k ∉ cfgs → (∀ j ∈ cfgs, j ∈ s.ready) ∨ k ∈ s.ready) := by
  rcases reload_hitless_groups_partial [cfgs] old0 ls s hrun hcalm k hk with h | ⟨g, hg, h⟩
  · exact ⟨fun _ => h, fun _ => Or.inr h⟩
  · rw [List.mem_singleton] at hg
    subst hg
    exact ⟨fun hkg => h k hkg, fun _ => Or.inl h⟩

/-! ## Nothing of the old generation is forgotten, and the wait ends -/

theorem old_kept {old0 : List Nat} : ∀ {ls s s'}, (∀ k ∈ old0, k ∈ s.old ∨ k ∈ s.asked) →
    run s ls = some s' → ∀ k ∈ old0, k ∈ s'.old ∨ k ∈ s'.asked
  | [], s, s', hi, h => by simp only [run, Option.some.injEq] at h; rw [← h]; exact hi
  | l :: ls, s, s', hi, h => by
    simp only [run] at h
    cases hs : step s l with
    | none => rw [hs] at h; cases h
    | some s1 =>
      rw [hs] at h
      refine old_kept (s := s1) ?_ h
      have shut : ∀ (k' : Nat) (s1 : St), s1.old = s.old.erase k' → s1.asked = k' :: s.asked →
          ∀ k ∈ old0, k ∈ s1.old ∨ k ∈ s1.asked := by
        intro k' s1 h1 h2 k hk
        rw [h1, h2]
        by_cases hkk : k = k'
        · right; rw [hkk]; exact List.mem_cons_self
        · rcases hi k hk with h | h
          · exact Or.inl ((List.mem_erase_of_ne hkk).mpr h)
          · exact Or.inr (List.mem_cons_of_mem _ h)
      cases l with
      | ready k g =>
        simp only [step] at hs
        split at hs
        · rw [Option.some.injEq] at hs; rw [← hs]; exact hi
        · cases hs
      | restartWaiting k g =>
        simp only [step] at hs
        split at hs
        · rw [Option.some.injEq] at hs; rw [← hs]; exact hi
        · cases hs
      | restartUp k g =>
        simp only [step] at hs
        split at hs
        · rw [Option.some.injEq] at hs; rw [← hs]; exact hi
        · cases hs
      | reconnect k g =>
        simp only [step] at hs
        split at hs
        · rw [Option.some.injEq] at hs; rw [← hs]; exact hi
        · cases hs
      | read =>
        simp only [step] at hs
        split at hs
        · rename_i k r _ _
          by_cases ho : k ∈ s.old
          · rw [if_pos ho, Option.some.injEq] at hs
            exact shut k s1 (by rw [← hs]) (by rw [← hs])
          · rw [if_neg ho, Option.some.injEq] at hs; rw [← hs]; exact hi
        · rw [Option.some.injEq] at hs; rw [← hs]; exact hi
        · cases hs
      | giveUp =>
        simp only [step] at hs
        split at hs
        · rw [Option.some.injEq] at hs; rw [← hs]; exact hi
        · cases hs
      | drain k =>
        simp only [step] at hs
        split at hs
        · rw [Option.some.injEq] at hs
          exact shut k s1 (by rw [← hs]) (by rw [← hs])
        · cases hs
      | finish =>
        simp only [step] at hs
        split at hs
        · rw [Option.some.injEq] at hs; rw [← hs]; exact hi
        · cases hs
      | restartOld k =>
        simp only [step] at hs
        split at hs
        · cases hs
        · rw [Option.some.injEq] at hs; rw [← hs]
          intro k' hk'
          rcases hi k' hk' with h | h
          · exact Or.inl (List.mem_cons_of_mem _ h)
          · exact Or.inr h

/-- **C53**: in every run, when the old manager is about to end (nothing left to drain), every process it had
was asked to shut down. -/
theorem reload_complete (gs : List (List Nat)) (old0 : List Nat) (ls : List Lbl) (s : St)
    (hrun : run (init gs old0) ls = some s) (hdone : s.old = []) (k : Nat) (hk : k ∈ old0) : k ∈ s.asked := by
  rcases old_kept (s := init gs old0) (fun k hk => Or.inl hk) hrun k hk with h | h
  · rw [hdone] at h; cases h
  · exact h

/-- `ReadyDone` was written. -/
def Told (s : St) : Prop := Op.done ∈ s.pipe ∨ s.phase ≠ .reading

theorem told_step {s l s'} (h : Told s) (hs : step s l = some s') : Told s' := by
  cases l with
  | ready k g =>
    simp only [step] at hs
    split at hs
    · rw [Option.some.injEq] at hs; rw [← hs]
      rcases h with h | h
      · exact Or.inl (List.mem_append.mpr (Or.inl h))
      · exact Or.inr h
    · cases hs
  | restartWaiting k g =>
    simp only [step] at hs
    split at hs
    · rw [Option.some.injEq] at hs; rw [← hs]; exact h
    · cases hs
  | restartUp k g =>
    simp only [step] at hs
    split at hs
    · rw [Option.some.injEq] at hs; rw [← hs]; exact h
    · cases hs
  | reconnect k g =>
    simp only [step] at hs
    split at hs
    · rw [Option.some.injEq] at hs; rw [← hs]; exact h
    · cases hs
  | read =>
    simp only [step] at hs
    split at hs
    · rename_i k r hph hp
      have hd : Op.done ∈ r := by
        rcases h with h | h
        · rw [hp] at h
          rcases List.mem_cons.mp h with h | h
          · cases h
          · exact h
        · exact absurd hph h
      by_cases ho : k ∈ s.old
      · rw [if_pos ho, Option.some.injEq] at hs; rw [← hs]; exact Or.inl hd
      · rw [if_neg ho, Option.some.injEq] at hs; rw [← hs]; exact Or.inl hd
    · rw [Option.some.injEq] at hs; rw [← hs]; right; intro h; cases h
    · cases hs
  | giveUp =>
    simp only [step] at hs
    split at hs
    · rw [Option.some.injEq] at hs; rw [← hs]; right; intro h; cases h
    · cases hs
  | drain k =>
    simp only [step] at hs
    split at hs
    · rw [Option.some.injEq] at hs; rw [← hs]; exact h
    · cases hs
  | finish =>
    simp only [step] at hs
    split at hs
    · rw [Option.some.injEq] at hs; rw [← hs]; right; intro h; cases h
    · cases hs
  | restartOld k =>
    simp only [step] at hs
    split at hs
    · cases hs
    · rw [Option.some.injEq] at hs; rw [← hs]; exact h

/-- Until `ReadyDone` is written in a run without replacements: the counter counts the waiting processes. -/
structure Counting (gs : List (List Nat)) (s : St) : Prop where
  cnt : ∀ g, s.cnt g = s.waiting.countP (fun x => decide (x.2 = g))
  open_ : ∀ g, g < gs.length → 0 < s.cnt g
  valid : ∀ x ∈ s.waiting, x.2 < gs.length

/-- Without replacements of processes that were ready. -/
def Steady (l : Lbl) : Prop :=
  match l with
  | .restartUp _ _ => False
  | .reconnect _ _ => False
  | _ => True

theorem counting_step {gs s l s'} (h : Told s ∨ Counting gs s) (hs : step s l = some s') (hl : Steady l) :
    Told s' ∨ Counting gs s' := by
  rcases h with h | h
  · exact Or.inl (told_step h hs)
  · cases l with
    | ready k g =>
      simp only [step] at hs
      by_cases hm : (k, g) ∈ s.waiting
      · rw [if_pos hm, Option.some.injEq] at hs
        by_cases h1 : s.cnt g = 1
        · left
          rw [← hs]
          left
          dsimp only
          rw [if_pos h1]
          exact List.mem_append.mpr (Or.inr (List.mem_singleton.mpr rfl))
        · right
          have hpos := h.open_ g (h.valid _ hm)
          rw [← hs]
          refine ⟨?_, ?_, ?_⟩
          · intro x
            dsimp only
            rw [countP_erase_mem _ _ _ _ hm]
            by_cases hx : x = g
            · subst hx
              rw [if_pos rfl, if_pos rfl, ← h.cnt x]
              unfold dec
              rw [if_neg (by omega)]
            · rw [if_neg hx, if_neg hx]; exact h.cnt x
          · intro x hx
            dsimp only
            by_cases hxg : x = g
            · rw [if_pos hxg]
              unfold dec
              rw [if_neg (by omega)]
              omega
            · rw [if_neg hxg]; exact h.open_ x hx
          · intro x hx
            exact h.valid x (List.mem_of_mem_erase hx)
      · rw [if_neg hm] at hs; cases hs
    | restartWaiting k g =>
      simp only [step] at hs
      split at hs
      · rw [Option.some.injEq] at hs; rw [← hs]; exact Or.inr h
      · cases hs
    | restartUp k g => exact absurd hl (by simp [Steady])
    | reconnect k g => exact absurd hl (by simp [Steady])
    | read =>
      simp only [step] at hs
      split at hs
      · rename_i k r hph hp
        right
        by_cases ho : k ∈ s.old
        · rw [if_pos ho, Option.some.injEq] at hs; rw [← hs]; exact ⟨h.cnt, h.open_, h.valid⟩
        · rw [if_neg ho, Option.some.injEq] at hs; rw [← hs]; exact ⟨h.cnt, h.open_, h.valid⟩
      · rw [Option.some.injEq] at hs; rw [← hs]; left; right; intro h; cases h
      · cases hs
    | giveUp =>
      simp only [step] at hs
      split at hs
      · rw [Option.some.injEq] at hs; rw [← hs]; left; right; intro h; cases h
      · cases hs
    | drain k =>
      simp only [step] at hs
      split at hs
      · rw [Option.some.injEq] at hs; rw [← hs]; exact Or.inr ⟨h.cnt, h.open_, h.valid⟩
      · cases hs
    | finish =>
      simp only [step] at hs
      split at hs
      · rw [Option.some.injEq] at hs; rw [← hs]; left; right; intro h; cases h
      · cases hs
    | restartOld k =>
      simp only [step] at hs
      split at hs
      · cases hs
      · rw [Option.some.injEq] at hs; rw [← hs]; exact Or.inr ⟨h.cnt, h.open_, h.valid⟩

theorem counting_run {gs} : ∀ {ls s s'}, (Told s ∨ Counting gs s) → (∀ l ∈ ls, Steady l) →
    run s ls = some s' → Told s' ∨ Counting gs s'
  | [], s, s', hi, _, h => by simp only [run, Option.some.injEq] at h; rw [← h]; exact hi
  | l :: ls, s, s', hi, hc, h => by
    simp only [run] at h
    cases hs : step s l with
    | none => rw [hs] at h; cases h
    | some s1 =>
      rw [hs] at h
      exact counting_run (counting_step hi hs (hc l List.mem_cons_self))
        (fun x hx => hc x (List.mem_cons_of_mem _ hx)) h

/-- **C53**: the old manager does not wait for the time-out: if the processes of some group have all reported
ready and none had to be replaced, `ReadyDone` is on its way or the old manager has already left its loop. -/
theorem reload_ends (gs : List (List Nat)) (hne : ∀ g ∈ gs, g ≠ []) (old0 : List Nat) (ls : List Lbl) (s : St)
    (hrun : run (init gs old0) ls = some s) (hst : ∀ l ∈ ls, Steady l)
    (g : Nat) (hg : g < gs.length) (hready : ∀ k, (k, g) ∉ s.waiting) :
    Op.done ∈ s.pipe ∨ s.phase ≠ .reading := by
  have h0 : Told (init gs old0) ∨ Counting gs (init gs old0) := by
    right
    have hp : Pre gs (init gs old0) := by
      rcases (inv_init gs old0).main with h | h
      · obtain ⟨g, hg, h⟩ := h
        obtain ⟨a, l, e⟩ := List.exists_cons_of_ne_nil (hne g hg)
        have := h a (by rw [e]; exact List.mem_cons_self)
        cases this
      · exact h
    refine ⟨hp.cnt, ?_, hp.valid⟩
    intro i hi
    show 0 < (gs.getD i []).length
    rw [getD_lt gs i hi]
    exact List.length_pos_iff.mpr (hne _ (List.getElem_mem hi))
  rcases counting_run h0 hst hrun with h | h
  · exact h
  · exfalso
    have h1 := h.open_ g hg
    rw [h.cnt g] at h1
    obtain ⟨x, hx, hxg⟩ := List.countP_pos_iff.mp h1
    obtain ⟨k, g'⟩ := x
    simp only [decide_eq_true_eq] at hxg
    subst hxg
    exact hready k hx

/-! ## What goes wrong -/

/-- The configurations asked to shut down although their replacement has not reported ready. -/
def interrupted (s : St) : List Nat := s.asked.filter (fun k => !s.ready.contains k)

/-- **C53 is false with two kinds of configurations**: server 0 and client 1. The server's group is complete as
soon as the new server is ready, and the old client is asked to shut down although the new one is not ready.
Nothing crashes and no time-out passes. -/
theorem two_groups_interrupt :
    ∃ ls s, run (init [[0], [1]] [0, 1]) ls = some s ∧ Calm [[0], [1]] (init [[0], [1]] [0, 1]) ls ∧
      1 ∈ s.asked ∧ 1 ∉ s.ready := by
  refine ⟨[.ready 0 0, .read, .drain 1], _, rfl, ?_, ?_, ?_⟩
  · simp [Calm, CalmStep]
  · decide
  · decide

/-- **C53 is false if a new process crashes after it was ready**: it reports ready twice and is counted for the
other one. -/
theorem crash_interrupts :
    ∃ ls s, run (init [[0, 1]] [0, 1]) ls = some s ∧ Lbl.giveUp ∉ ls ∧ 1 ∈ s.asked ∧ 1 ∉ s.ready := by
  refine ⟨[.ready 0 0, .restartUp 0 0, .ready 0 0, .read, .read, .drain 1], _, rfl, ?_, ?_, ?_⟩ <;> decide

/-- The same if a new process asks for being replaced (the server told it to reconnect). -/
theorem reconnect_interrupts :
    ∃ ls s, run (init [[0, 1]] [0, 1]) ls = some s ∧ Lbl.giveUp ∉ ls ∧ 1 ∈ s.asked ∧ 1 ∉ s.ready := by
  refine ⟨[.ready 0 0, .reconnect 0 0, .ready 0 1, .read, .read, .drain 1], _, rfl, ?_, ?_, ?_⟩ <;> decide

/-- A calm run with two clients and a removed configuration 7: everything is replaced. -/
theorem hitless_example :
    ∃ s, run (init [[0, 1]] [0, 1, 7])
        [.ready 1 0, .read, .restartWaiting 0 0, .ready 0 0, .read, .drain 0, .drain 7, .finish] = some s ∧
      Calm [[0, 1]] (init [[0, 1]] [0, 1, 7])
        [.ready 1 0, .read, .restartWaiting 0 0, .ready 0 0, .read, .drain 0, .drain 7, .finish] ∧
      s.asked = [7, 0, 1] ∧ s.ready = [0, 1] ∧ s.phase = .finished :=
  ⟨_, rfl, by simp [Calm, CalmStep], rfl, rfl, rfl⟩

end Verif.Manager.Reload
