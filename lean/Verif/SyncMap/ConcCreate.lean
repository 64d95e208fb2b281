import Verif.SyncMap.ConcProps
set_option linter.unusedSimpArgs false
set_option linter.unusedVariables false
set_option linter.unusedSectionVars false
/-! # Creating an entry under concurrency: what an observer of calls and returns can rely on -/
namespace Verif.SyncMap
open Verif
variable {K V : Type} [DecidableEq K]

/-! ## Specification -/

/-- The call each thread has in progress after the history `tr`. -/
def openOps (tr : List (Ev K V)) : Nat → Option (COp K V) :=
  tr.foldl (fun ops ev => match ev with
    | .inv t op => put ops t (some op)
    | .ret t _ => put ops t none) (fun _ => none)

/-- The value a call returned for key `k`, and whether the caller was told that it created it. -/
def valueFor (k : K) : COp K V → Out K V → Option (V × Bool)
  | .load k', .opt (some v) => if k' = k then some (v, false) else none
  | .loadOrCreate k' _, .pair v loaded => if k' = k then some (v, !loaded) else none
  | _, _ => none

/-- One event of the scan: the calls in progress that began in this history, and what they returned. -/
def note (k : K) (st : (Nat → Option (COp K V)) × List (V × Bool)) : Ev K V → (Nat → Option (COp K V)) × List (V × Bool)
  | .inv t op => (put st.1 t (some op), st.2)
  | .ret t o =>
    (put st.1 t none, match st.1 t with
      | some op => match valueFor k op o with
        | some r => st.2 ++ [r]
        | none => st.2
      | none => st.2)

/-- The values returned for `k` by the calls that both began and returned in the history, each with the
caller's belief to have created it. -/
def valuesFor (k : K) (tr : List (Ev K V)) : List (V × Bool) := (tr.foldl (note k) (fun _ => none, [])).2

/-- How many of these calls reported "created". -/
def creations (k : K) (tr : List (Ev K V)) : Nat := ((valuesFor k tr).filter (fun r => r.2)).length

/-- No deleting call of `k` overlaps the history `w` that follows `tr`. -/
def NoDelete (k : K) (tr w : List (Ev K V)) : Prop :=
  (∀ t op, openOps tr t = some op → ¬ isDel op k) ∧ ∀ t op, Ev.inv t op ∈ w → ¬ isDel op k

/-- Nor does a `Store` to `k`. -/
def NoStore (k : K) (tr w : List (Ev K V)) : Prop :=
  (∀ t v, openOps tr t ≠ some (.store k v)) ∧ ∀ t v, Ev.inv t (.store k v) ∉ w

/-! ## Proof -/

/-- The atomic object from a given state. -/
inductive AFrom (a0 : AS K V) : List (Ev K V) → AS K V → Prop
  | init : AFrom a0 [] a0
  | step (w a l a') : AFrom a0 w a → AStep a l a' → AFrom a0 (app w l) a'

theorem app_append {α : Type} (x y : List α) (l : Option α) : app (x ++ y) l = x ++ app y l := by
  cases l <;> simp [app]

/-- Cutting an execution. -/
theorem AExec.cut {tr : List (Ev K V)} {a : AS K V} (h : AExec tr a) :
    ∀ x y, tr = x ++ y → ∃ a0, AExec x a0 ∧ AFrom a0 y a := by
  induction h with
  | init =>
    intro x y hxy
    obtain ⟨rfl, rfl⟩ := List.append_eq_nil_iff.mp hxy.symm
    exact ⟨_, AExec.init, AFrom.init⟩
  | step tr a l a' h hs ih =>
    intro x y hxy
    cases l with
    | none =>
      obtain ⟨a0, h1, h2⟩ := ih x y hxy
      exact ⟨a0, h1, AFrom.step y a none a' h2 hs⟩
    | some ev =>
      rcases List.eq_nil_or_concat y with rfl | ⟨y', e, rfl⟩
      · simp only [List.append_nil] at hxy
        subst hxy
        exact ⟨a', AExec.step _ _ _ _ h hs, AFrom.init⟩
      · simp only [app, List.concat_eq_append, ← List.append_assoc] at hxy
        obtain ⟨h1, h2⟩ := List.append_inj' hxy rfl
        simp only [List.cons.injEq, and_true] at h2
        subst h2
        obtain ⟨a0, h3, h4⟩ := ih x y' h1
        refine ⟨a0, h3, ?_⟩
        have := AFrom.step y' a (some ev) a' h4 hs
        simpa [app] using this

/-- A pending call has been invoked and has not returned. -/
theorem AExec.open {tr : List (Ev K V)} {a : AS K V} (h : AExec tr a) :
    ∀ t op S, a.th t = .pend op S → openOps tr t = some op := by
  induction h with
  | init => intro t op S h; cases h
  | step tr a l a' h hs ih =>
    cases hs with
    | inv t op ht =>
      intro u op' S hu
      simp only [app, openOps, List.foldl_append, List.foldl_cons, List.foldl_nil]
      dsimp only at hu
      by_cases hut : u = t
      · subst hut; rw [put_self] at hu ⊢; cases hu; rfl
      · rw [put_ne _ _ _ _ hut] at hu ⊢; exact ih u op' S hu
    | lin t op S o g ht hc =>
      intro u op' S' hu
      dsimp only at hu
      by_cases hut : u = t
      · subst hut; rw [put_self] at hu; cases hu
      · rw [put_ne _ _ _ _ hut] at hu
        cases ha : a.th u with
        | idle => rw [ha] at hu; cases hu
        | done o => rw [ha] at hu; cases hu
        | pend op2 S2 => rw [ha] at hu; cases hu; exact ih u op' S2 ha
    | rng t S l ht hr =>
      intro u op' S' hu
      dsimp only at hu
      by_cases hut : u = t
      · subst hut; rw [put_self] at hu; cases hu
      · rw [put_ne _ _ _ _ hut] at hu; exact ih u op' S' hu
    | ret t o ht =>
      intro u op' S hu
      simp only [app, openOps, List.foldl_append, List.foldl_cons, List.foldl_nil]
      dsimp only at hu
      by_cases hut : u = t
      · subst hut; rw [put_self] at hu; cases hu
      · rw [put_ne _ _ _ _ hut] at hu ⊢; exact ih u op' S hu

/-- The scan of a window. -/
def scan (k : K) (w : List (Ev K V)) : (Nat → Option (COp K V)) × List (V × Bool) :=
  w.foldl (note k) (fun _ => none, [])

theorem scan_snoc (k : K) (w : List (Ev K V)) (ev) : scan k (w ++ [ev]) = note k (scan k w) ev := by
  simp [scan, List.foldl_append]

/-- Thread `t` has linearized a call of this window and will return `r` for `k`. -/
def Will (k : K) (w : List (Ev K V)) (a : AS K V) (t : Nat) (r : V × Bool) : Prop :=
  ∃ op o, (scan k w).1 t = some op ∧ a.th t = .done o ∧ valueFor k op o = some r

def cre (l : List (V × Bool)) : Nat := (l.filter (fun r => r.2)).length

structure Win (k : K) (w : List (Ev K V)) (a : AS K V) : Prop where
  /-- no deletion of `k` is pending -/
  nodel : ∀ t op S, a.th t = .pend op S → ¬ isDel op k
  /-- the scan knows what a call of this window was -/
  known : ∀ t op op' S, (scan k w).1 t = some op → a.th t = .pend op' S → op' = op
  /-- nothing is returned as long as the key is absent -/
  absent : a.f k = none → (scan k w).2 = [] ∧ ∀ t r, ¬ Will k w a t r
  /-- at most one creation -/
  once : cre (scan k w).2 ≤ 1
  will : ∀ t v, Will k w a t (v, true) → cre (scan k w).2 = 0
  will2 : ∀ t t' v v', Will k w a t (v, true) → Will k w a t' (v', true) → t = t'

/-- What a linearized call returns for `k`, and what it leaves there. -/
theorem spec_value {f g : K → Option V} {op : COp K V} {o} (h : CSpec f op o g) {k : K} :
    (∀ v c, valueFor k op o = some (v, c) → g k = some v ∧ (c = true → f k = none) ∧ (c = false → f k = some v)) ∧
    (¬ isDel op k → g k = none → f k = none) := by
  cases op with
  | load k' =>
    obtain ⟨rfl, rfl⟩ := h
    refine ⟨?_, fun _ => id⟩
    intro v c hv
    cases hf : g k' with
    | none => rw [hf] at hv; cases hv
    | some x =>
      rw [hf] at hv
      simp only [valueFor] at hv
      split at hv
      · rename_i hk; subst hk; cases hv; exact ⟨hf, (by intro h; cases h), fun _ => hf⟩
      · cases hv
  | store k' v' =>
    obtain ⟨rfl, rfl⟩ := h
    refine ⟨(by intro v c hv; cases hv), fun _ hg => ?_⟩
    simp only [bind] at hg
    split at hg
    · cases hg
    · exact hg
  | loadOrCreate k' vals =>
    rcases h with ⟨x, hf, rfl, rfl⟩ | ⟨hf, x, hx, rfl, rfl⟩
    · refine ⟨?_, fun _ => id⟩
      intro v c hv
      simp only [valueFor] at hv
      split at hv
      · rename_i hk; subst hk; cases hv; exact ⟨hf, (by intro h; cases h), fun _ => hf⟩
      · cases hv
    · refine ⟨?_, fun _ hg => ?_⟩
      · intro v c hv
        simp only [valueFor] at hv
        split at hv
        · rename_i hk; subst hk; cases hv
          exact ⟨by simp [bind], fun _ => hf, (by intro h; cases h)⟩
        · cases hv
      · simp only [bind] at hg
        split at hg
        · cases hg
        · exact hg
  | loadAndDelete k' =>
    obtain ⟨rfl, rfl⟩ := h
    refine ⟨(by intro v c hv; cases hv), fun hn hg => ?_⟩
    simp only [bind] at hg
    split at hg
    · rename_i hk; exact absurd hk.symm hn
    · exact hg
  | delete k' =>
    obtain ⟨rfl, rfl⟩ := h
    refine ⟨(by intro v c hv; cases hv), fun hn hg => ?_⟩
    simp only [bind] at hg
    split at hg
    · rename_i hk; exact absurd hk.symm hn
    · exact hg
  | range => exact absurd h id

theorem value_list (k : K) (op : COp K V) (l) : valueFor k op (.list l) = none := by cases op <;> rfl

theorem win_step {k : K} {w : List (Ev K V)} {a a' : AS K V} {l} (hw : Win k w a) (hs : AStep a l a')
    (hl : ∀ t op, l = some (.inv t op) → ¬ isDel op k) : Win k (app w l) a' := by
  cases hs with
  | inv t op ht =>
    have hn := hl t op rfl
    have hsc : scan k (app w (some (Ev.inv t op))) = (put (scan k w).1 t (some op), (scan k w).2) := by
      simp only [app]; rw [scan_snoc]; rfl
    have hwill : ∀ u r, Will k (app w (some (Ev.inv t op))) { a with th := put a.th t (AT.pend op fun h => h = a.f) } u r →
        Will k w a u r := by
      rintro u r ⟨op', o, h1, h2, h3⟩
      dsimp only at h2
      rw [hsc] at h1
      dsimp only at h1
      by_cases hut : u = t
      · subst hut; rw [put_self] at h2; cases h2
      · rw [put_ne _ _ _ _ hut] at h1 h2
        exact ⟨op', o, h1, h2, h3⟩
    constructor
    · intro u op' S hu
      dsimp only at hu
      by_cases hut : u = t
      · subst hut; rw [put_self] at hu; cases hu; exact hn
      · rw [put_ne _ _ _ _ hut] at hu; exact hw.nodel u op' S hu
    · intro u op1 op2 S h1 hu
      rw [hsc] at h1
      dsimp only at hu h1
      by_cases hut : u = t
      · subst hut; rw [put_self] at hu h1; cases hu; cases h1; rfl
      · rw [put_ne _ _ _ _ hut] at hu h1; exact hw.known u op1 op2 S h1 hu
    · intro hf
      obtain ⟨h1, h2⟩ := hw.absent hf
      rw [hsc]
      exact ⟨h1, fun u r hu => h2 u r (hwill u r hu)⟩
    · rw [hsc]; exact hw.once
    · intro u v hu; rw [hsc]; exact hw.will u v (hwill u _ hu)
    · intro u u' v v' hu hu'; exact hw.will2 u u' v v' (hwill u _ hu) (hwill u' _ hu')
  | lin t op S o g ht hc =>
    obtain ⟨hv, hnone⟩ := spec_value hc (k := k)
    have hnd := hw.nodel t op S ht
    have hth : ∀ u op' S', put (fun u => (a.th u).push g) t (AT.done o) u = AT.pend op' S' → u ≠ t ∧ ∃ S2, a.th u = .pend op' S2 := by
      intro u op' S' hu
      by_cases hut : u = t
      · subst hut; rw [put_self] at hu; cases hu
      · rw [put_ne _ _ _ _ hut] at hu
        refine ⟨hut, ?_⟩
        cases ha : a.th u with
        | idle => rw [ha] at hu; cases hu
        | done o => rw [ha] at hu; cases hu
        | pend op2 S2 => rw [ha] at hu; cases hu; exact ⟨S2, rfl⟩
    have hwill : ∀ u r, Will k w ⟨g, put (fun u => (a.th u).push g) t (AT.done o)⟩ u r →
        (u ≠ t ∧ Will k w a u r) ∨ (u = t ∧ valueFor k op o = some r) := by
      rintro u r ⟨op', o', h1, h2, h3⟩
      dsimp only at h2
      by_cases hut : u = t
      · subst hut
        rw [put_self] at h2; cases h2
        have := hw.known u op' op S h1 ht
        subst this
        exact Or.inr ⟨rfl, h3⟩
      · rw [put_ne _ _ _ _ hut] at h2
        refine Or.inl ⟨hut, op', o', h1, ?_, h3⟩
        cases ha : a.th u with
        | idle => rw [ha] at h2; cases h2
        | done o => rw [ha] at h2; cases h2; rfl
        | pend op2 S2 => rw [ha] at h2; cases h2
    constructor
    · intro u op' S' hu
      obtain ⟨_, S2, h2⟩ := hth u op' S' hu
      exact hw.nodel u op' S2 h2
    · intro u op1 op2 S' h1 hu
      obtain ⟨_, S2, h2⟩ := hth u op2 S' hu
      exact hw.known u op1 op2 S2 h1 h2
    · intro hf
      obtain ⟨h1, h2⟩ := hw.absent (hnone hnd hf)
      refine ⟨h1, fun u r hu => ?_⟩
      rcases hwill u r hu with ⟨_, h3⟩ | ⟨_, h3⟩
      · exact h2 u r h3
      · have hf : g k = none := hf
        have := (hv r.1 r.2 h3).1
        rw [hf] at this; cases this
    · exact hw.once
    · intro u v hu
      rcases hwill u _ hu with ⟨_, h3⟩ | ⟨_, h3⟩
      · exact hw.will u v h3
      · have := (hw.absent ((hv v true h3).2.1 rfl)).1
        show cre (scan k w).2 = 0
        rw [this]; rfl
    · intro u u' v v' hu hu'
      rcases hwill u _ hu with ⟨_, h3⟩ | ⟨h4, h3⟩
      · rcases hwill u' _ hu' with ⟨_, h3'⟩ | ⟨_, h3'⟩
        · exact hw.will2 u u' v v' h3 h3'
        · exact absurd h3 ((hw.absent ((hv v' true h3').2.1 rfl)).2 u _)
      · rcases hwill u' _ hu' with ⟨_, h3'⟩ | ⟨h4', h3'⟩
        · exact absurd h3' ((hw.absent ((hv v true h3).2.1 rfl)).2 u' _)
        · rw [h4, h4']
  | rng t S l ht hr =>
    have hwill : ∀ u r, Will k w { a with th := put a.th t (AT.done (.list l)) } u r → Will k w a u r := by
      rintro u r ⟨op', o, h1, h2, h3⟩
      dsimp only at h2
      by_cases hut : u = t
      · subst hut; rw [put_self] at h2; cases h2; rw [value_list] at h3; cases h3
      · rw [put_ne _ _ _ _ hut] at h2
        exact ⟨op', o, h1, h2, h3⟩
    have hth : ∀ u op' S', put a.th t (AT.done (.list l)) u = AT.pend op' S' → a.th u = .pend op' S' := by
      intro u op' S' hu
      by_cases hut : u = t
      · subst hut; rw [put_self] at hu; cases hu
      · rw [put_ne _ _ _ _ hut] at hu; exact hu
    constructor
    · intro u op' S' hu; exact hw.nodel u op' S' (hth u op' S' hu)
    · intro u op1 op2 S' h1 hu; exact hw.known u op1 op2 S' h1 (hth u op2 S' hu)
    · intro hf
      obtain ⟨h1, h2⟩ := hw.absent hf
      exact ⟨h1, fun u r hu => h2 u r (hwill u r hu)⟩
    · exact hw.once
    · intro u v hu; exact hw.will u v (hwill u _ hu)
    · intro u u' v v' hu hu'; exact hw.will2 u u' v v' (hwill u _ hu) (hwill u' _ hu')
  | ret t o ht =>
    have hth : ∀ u op' S', put a.th t AT.idle u = AT.pend op' S' → u ≠ t ∧ a.th u = .pend op' S' := by
      intro u op' S' hu
      by_cases hut : u = t
      · subst hut; rw [put_self] at hu; cases hu
      · rw [put_ne _ _ _ _ hut] at hu; exact ⟨hut, hu⟩
    have hsc1 : ∀ u, u ≠ t → (scan k (app w (some (Ev.ret t o)))).1 u = (scan k w).1 u := by
      intro u hut
      simp only [app]; rw [scan_snoc]; simp only [note]; rw [put_ne _ _ _ _ hut]
    have hwill : ∀ u r, Will k (app w (some (Ev.ret t o))) { a with th := put a.th t AT.idle } u r →
        u ≠ t ∧ Will k w a u r := by
      rintro u r ⟨op', o', h1, h2, h3⟩
      dsimp only at h2
      by_cases hut : u = t
      · subst hut; rw [put_self] at h2; cases h2
      · rw [put_ne _ _ _ _ hut] at h2
        rw [hsc1 u hut] at h1
        exact ⟨hut, op', o', h1, h2, h3⟩
    have hsc2 : (scan k (app w (some (Ev.ret t o)))).2 = (scan k w).2 ∨
        ∃ r, Will k w a t r ∧ (scan k (app w (some (Ev.ret t o)))).2 = (scan k w).2 ++ [r] := by
      simp only [app]; rw [scan_snoc]; simp only [note]
      cases h1 : (scan k w).1 t with
      | none => exact Or.inl rfl
      | some op =>
        simp only
        cases h2 : valueFor k op o with
        | none => exact Or.inl rfl
        | some r => exact Or.inr ⟨r, ⟨op, o, h1, ht, h2⟩, rfl⟩
    constructor
    · intro u op' S' hu; exact hw.nodel u op' S' (hth u op' S' hu).2
    · intro u op1 op2 S' h1 hu
      obtain ⟨hut, hu'⟩ := hth u op2 S' hu
      rw [hsc1 u hut] at h1
      exact hw.known u op1 op2 S' h1 hu'
    · intro hf
      obtain ⟨h1, h2⟩ := hw.absent hf
      refine ⟨?_, fun u r hu => h2 u r (hwill u r hu).2⟩
      rcases hsc2 with h | ⟨r, hr, _⟩
      · rw [h, h1]
      · exact absurd hr (h2 t r)
    · rcases hsc2 with h | ⟨⟨v, c⟩, hr, h⟩
      · rw [h]; exact hw.once
      · rw [h]
        cases c with
        | true =>
          have := hw.will t v hr
          simp only [cre] at this ⊢
          simp [this]
        | false =>
          have := hw.once
          simp only [cre] at this ⊢
          simpa using this
    · intro u v hu
      obtain ⟨hut, hu'⟩ := hwill u _ hu
      rcases hsc2 with h | ⟨⟨v', c⟩, hr, h⟩
      · rw [h]; exact hw.will u v hu'
      · rw [h]
        cases c with
        | true => exact absurd (hw.will2 u t v v' hu' hr) hut
        | false =>
          have := hw.will u v hu'
          simp only [cre] at this ⊢
          simp [this]
    · intro u u' v v' hu hu'; exact hw.will2 u u' v v' (hwill u _ hu).2 (hwill u' _ hu').2

theorem win_run {k : K} {a0 : AS K V} {w a} (h : AFrom a0 w a) (h0 : ∀ t op S, a0.th t = .pend op S → ¬ isDel op k)
    (hw : ∀ t op, Ev.inv t op ∈ w → ¬ isDel op k) : Win k w a := by
  induction h with
  | init =>
    refine ⟨h0, (by intro t op op' S h; cases h), fun _ => ⟨rfl, ?_⟩, Nat.zero_le _, ?_, ?_⟩
    · rintro t r ⟨op, o, h, _⟩; cases h
    · rintro t v ⟨op, o, h, _⟩; cases h
    · rintro t t' v v' ⟨op, o, h, _⟩; cases h
  | step w a l a' h hs ih =>
    refine win_step (ih ?_) hs ?_
    · intro t op hm; apply hw t op
      cases l with
      | none => exact hm
      | some ev => simp only [app, List.mem_append]; exact Or.inl hm
    · intro t op hl; apply hw t op; subst hl; simp [app]

/-- **At most one creator.** In any stretch `w` of any history that no deletion of `k` overlaps, at most
one of the `LoadOrCreate`/`LoadOrStore` calls for `k` made in that stretch is told that it created the
entry. -/
theorem single_creator {tr w : List (Ev K V)} {s : CS K V} (h : Exec (tr ++ w) s) {k : K} (hd : NoDelete k tr w) :
    creations k w ≤ 1 := by
  obtain ⟨a, ha⟩ := linearizable h
  obtain ⟨a0, h0, h1⟩ := ha.cut tr w rfl
  exact (win_run h1 (fun t op S ht => hd.1 t op (h0.open t op S ht)) hd.2).once

/-! ### All callers get the same value -/

structure Agree (k : K) (w : List (Ev K V)) (a : AS K V) : Prop where
  nodel : ∀ t op S, a.th t = .pend op S → ¬ isDel op k ∧ ∀ v, op ≠ .store k v
  known : ∀ t op op' S, (scan k w).1 t = some op → a.th t = .pend op' S → op' = op
  vals : ∀ r ∈ (scan k w).2, a.f k = some r.1
  will : ∀ t r, Will k w a t r → a.f k = some r.1

theorem spec_keep {f g : K → Option V} {op : COp K V} {o} (h : CSpec f op o g) {k : K} {v}
    (hn : ¬ isDel op k) (hs : ∀ v, op ≠ .store k v) (hf : f k = some v) : g k = some v := by
  cases op with
  | load k' => obtain ⟨_, rfl⟩ := h; exact hf
  | store k' v' =>
    obtain ⟨_, rfl⟩ := h
    simp only [bind]
    split
    · rename_i hk; subst hk; exact absurd rfl (hs v')
    · exact hf
  | loadOrCreate k' vals =>
    rcases h with ⟨_, _, _, rfl⟩ | ⟨hf', x, hx, _, rfl⟩
    · exact hf
    · simp only [bind]
      split
      · rename_i hk; subst hk; rw [hf] at hf'; cases hf'
      · exact hf
  | loadAndDelete k' =>
    obtain ⟨_, rfl⟩ := h
    simp only [bind]
    split
    · rename_i hk; exact absurd hk.symm hn
    · exact hf
  | delete k' =>
    obtain ⟨_, rfl⟩ := h
    simp only [bind]
    split
    · rename_i hk; exact absurd hk.symm hn
    · exact hf
  | range => exact absurd h id

theorem agree_step {k : K} {w : List (Ev K V)} {a a' : AS K V} {l} (hw : Agree k w a) (hs : AStep a l a')
    (hl : ∀ t op, l = some (.inv t op) → ¬ isDel op k ∧ ∀ v, op ≠ .store k v) : Agree k (app w l) a' := by
  cases hs with
  | inv t op ht =>
    have hn := hl t op rfl
    have hsc : scan k (app w (some (Ev.inv t op))) = (put (scan k w).1 t (some op), (scan k w).2) := by
      simp only [app]; rw [scan_snoc]; rfl
    constructor
    · intro u op' S hu
      dsimp only at hu
      by_cases hut : u = t
      · subst hut; rw [put_self] at hu; cases hu; exact hn
      · rw [put_ne _ _ _ _ hut] at hu; exact hw.nodel u op' S hu
    · intro u op1 op2 S h1 hu
      rw [hsc] at h1
      dsimp only at hu h1
      by_cases hut : u = t
      · subst hut; rw [put_self] at hu h1; cases hu; cases h1; rfl
      · rw [put_ne _ _ _ _ hut] at hu h1; exact hw.known u op1 op2 S h1 hu
    · rw [hsc]; exact hw.vals
    · rintro u r ⟨op', o, h1, h2, h3⟩
      dsimp only at h2
      rw [hsc] at h1
      dsimp only at h1
      by_cases hut : u = t
      · subst hut; rw [put_self] at h2; cases h2
      · rw [put_ne _ _ _ _ hut] at h1 h2
        exact hw.will u r ⟨op', o, h1, h2, h3⟩
  | lin t op S o g ht hc =>
    obtain ⟨hn, hst⟩ := hw.nodel t op S ht
    have hth : ∀ u op' S', put (fun u => (a.th u).push g) t (AT.done o) u = AT.pend op' S' → u ≠ t ∧ ∃ S2, a.th u = .pend op' S2 := by
      intro u op' S' hu
      by_cases hut : u = t
      · subst hut; rw [put_self] at hu; cases hu
      · rw [put_ne _ _ _ _ hut] at hu
        refine ⟨hut, ?_⟩
        cases ha : a.th u with
        | idle => rw [ha] at hu; cases hu
        | done o => rw [ha] at hu; cases hu
        | pend op2 S2 => rw [ha] at hu; cases hu; exact ⟨S2, rfl⟩
    constructor
    · intro u op' S' hu
      obtain ⟨_, S2, h2⟩ := hth u op' S' hu
      exact hw.nodel u op' S2 h2
    · intro u op1 op2 S' h1 hu
      obtain ⟨_, S2, h2⟩ := hth u op2 S' hu
      exact hw.known u op1 op2 S2 h1 h2
    · intro r hr; exact spec_keep hc hn hst (hw.vals r hr)
    · rintro u r ⟨op', o', h1, h2, h3⟩
      dsimp only at h2
      by_cases hut : u = t
      · subst hut
        rw [put_self] at h2; cases h2
        have := hw.known u op' op S h1 ht
        subst this
        exact ((spec_value hc (k := k)).1 r.1 r.2 h3).1
      · rw [put_ne _ _ _ _ hut] at h2
        refine spec_keep hc hn hst (hw.will u r ⟨op', o', h1, ?_, h3⟩)
        cases ha : a.th u with
        | idle => rw [ha] at h2; cases h2
        | done o => rw [ha] at h2; cases h2; rfl
        | pend op2 S2 => rw [ha] at h2; cases h2
  | rng t S l ht hr =>
    have hth : ∀ u op' S', put a.th t (AT.done (.list l)) u = AT.pend op' S' → a.th u = .pend op' S' := by
      intro u op' S' hu
      by_cases hut : u = t
      · subst hut; rw [put_self] at hu; cases hu
      · rw [put_ne _ _ _ _ hut] at hu; exact hu
    constructor
    · intro u op' S' hu; exact hw.nodel u op' S' (hth u op' S' hu)
    · intro u op1 op2 S' h1 hu; exact hw.known u op1 op2 S' h1 (hth u op2 S' hu)
    · exact hw.vals
    · rintro u r ⟨op', o, h1, h2, h3⟩
      dsimp only at h2
      by_cases hut : u = t
      · subst hut; rw [put_self] at h2; cases h2; rw [value_list] at h3; cases h3
      · rw [put_ne _ _ _ _ hut] at h2
        exact hw.will u r ⟨op', o, h1, h2, h3⟩
  | ret t o ht =>
    have hth : ∀ u op' S', put a.th t AT.idle u = AT.pend op' S' → u ≠ t ∧ a.th u = .pend op' S' := by
      intro u op' S' hu
      by_cases hut : u = t
      · subst hut; rw [put_self] at hu; cases hu
      · rw [put_ne _ _ _ _ hut] at hu; exact ⟨hut, hu⟩
    have hsc1 : ∀ u, u ≠ t → (scan k (app w (some (Ev.ret t o)))).1 u = (scan k w).1 u := by
      intro u hut
      simp only [app]; rw [scan_snoc]; simp only [note]; rw [put_ne _ _ _ _ hut]
    have hsc2 : (scan k (app w (some (Ev.ret t o)))).2 = (scan k w).2 ∨
        ∃ r, Will k w a t r ∧ (scan k (app w (some (Ev.ret t o)))).2 = (scan k w).2 ++ [r] := by
      simp only [app]; rw [scan_snoc]; simp only [note]
      cases h1 : (scan k w).1 t with
      | none => exact Or.inl rfl
      | some op =>
        simp only
        cases h2 : valueFor k op o with
        | none => exact Or.inl rfl
        | some r => exact Or.inr ⟨r, ⟨op, o, h1, ht, h2⟩, rfl⟩
    constructor
    · intro u op' S' hu; exact hw.nodel u op' S' (hth u op' S' hu).2
    · intro u op1 op2 S' h1 hu
      obtain ⟨hut, hu'⟩ := hth u op2 S' hu
      rw [hsc1 u hut] at h1
      exact hw.known u op1 op2 S' h1 hu'
    · intro r hr
      rcases hsc2 with h | ⟨r', hr', h⟩
      · rw [h] at hr; exact hw.vals r hr
      · rw [h] at hr
        simp only [List.mem_append, List.mem_singleton] at hr
        rcases hr with hr | rfl
        · exact hw.vals r hr
        · exact hw.will t r hr'
    · rintro u r ⟨op', o', h1, h2, h3⟩
      dsimp only at h2
      by_cases hut : u = t
      · subst hut; rw [put_self] at h2; cases h2
      · rw [put_ne _ _ _ _ hut] at h2
        rw [hsc1 u hut] at h1
        exact hw.will u r ⟨op', o', h1, h2, h3⟩

theorem agree_run {k : K} {a0 : AS K V} {w a} (h : AFrom a0 w a)
    (h0 : ∀ t op S, a0.th t = .pend op S → ¬ isDel op k ∧ ∀ v, op ≠ .store k v)
    (hw : ∀ t op, Ev.inv t op ∈ w → ¬ isDel op k ∧ ∀ v, op ≠ .store k v) : Agree k w a := by
  induction h with
  | init =>
    refine ⟨h0, (by intro t op op' S h; cases h), (by intro r h; cases h), ?_⟩
    rintro t r ⟨op, o, h, _⟩; cases h
  | step w a l a' h hs ih =>
    refine agree_step (ih ?_) hs ?_
    · intro t op hm; apply hw t op
      cases l with
      | none => exact hm
      | some ev => simp only [app, List.mem_append]; exact Or.inl hm
    · intro t op hl; apply hw t op; subst hl; simp [app]

/-- **Everybody gets the created value.** In a stretch of a history that neither a deletion of `k` nor a
`Store` to `k` overlaps, all `Load`, `LoadOrStore` and `LoadOrCreate` calls made in it that return a value
for `k` return the same one — in particular the one of the call that was told it created the entry. -/
theorem same_value {tr w : List (Ev K V)} {s : CS K V} (h : Exec (tr ++ w) s) {k : K} (hd : NoDelete k tr w)
    (hs : NoStore k tr w) : ∀ r ∈ valuesFor k w, ∀ r' ∈ valuesFor k w, r.1 = r'.1 := by
  obtain ⟨a, ha⟩ := linearizable h
  obtain ⟨a0, h0, h1⟩ := ha.cut tr w rfl
  have hA := agree_run (k := k) h1 (fun t op S ht => by
      have ho := h0.open t op S ht
      refine ⟨hd.1 t op ho, ?_⟩
      rintro v rfl; exact hs.1 t v ho) (fun t op hm => by
      refine ⟨hd.2 t op hm, ?_⟩
      rintro v rfl; exact hs.2 t v hm)
  intro r hr r' hr'
  have h1 := hA.vals r hr
  have h2 := hA.vals r' hr'
  rw [h1] at h2
  exact Option.some.inj h2

/-! ### A concrete race -/

/-- Two threads race to create key 7, a third loads it while the second deletes it: thread 0 creates the
entry, thread 1 gets it, thread 2 takes the entry out of the dirty map, thread 1 deletes the key, and
thread 2 — now reading an entry that is in no map — still returns the value it had during its call. -/
example : ∃ s, Exec (K := Nat) (V := Nat)
    ([.inv 0 (.loadOrCreate 7 [1]), .inv 1 (.loadOrCreate 7 [2]), .ret 0 (.pair 1 false)] ++
     [.ret 1 (.pair 1 true), .inv 0 (.store 8 5), .ret 0 .unit, .inv 2 (.load 8), .inv 1 (.loadAndDelete 8),
      .ret 2 (.opt (some 5)), .ret 1 (.opt (some 5))]) s := by
  have e0 := Exec.init (K := Nat) (V := Nat)
  have e1 := Exec.step _ _ _ _ e0 (Step.inv _ 0 (.loadOrCreate 7 [1]) rfl)
  have e2 := Exec.step _ _ _ _ e1 (Step.inv _ 1 (.loadOrCreate 7 [2]) rfl)
  have e3 := Exec.step _ _ _ _ e2 (Step.int _ 0 _ _ (TStep.lc_slow _ 7 [1] rfl))
  have e4 := Exec.step _ _ _ _ e3 (Step.int _ 1 _ _ (TStep.lc_slow _ 7 [2] rfl))
  have e5 := Exec.step _ _ _ _ e4 (Step.int _ 0 _ _ (TStep.ins_dl _ (.loadOrCreate 7 [1]) 7 1 (.pair 1 false)
    ⟨rfl, by simp, rfl⟩ rfl rfl rfl rfl))
  have e6 := Exec.step _ _ _ _ e5 (Step.int _ 0 _ _ (TStep.dl_end _ (.loadOrCreate 7 [1]) 7 1 (.pair 1 false) []
    ⟨rfl, by simp, rfl⟩ rfl))
  have e7 := Exec.step _ _ _ _ e6 (Step.ret _ 0 (.pair 1 false) rfl)
  have e8 := Exec.step _ _ _ _ e7 (Step.int _ 1 _ _ (TStep.lcw_dirty _ 7 [2] 0 rfl rfl rfl))
  have e9 := Exec.step _ _ _ _ e8 (Step.int _ 1 _ _ (TStep.lsT_val _ 7 [2] none 0 .lockD 1 rfl))
  have e10 := Exec.step _ _ _ _ e9 (Step.int _ 1 _ _ (TStep.miss _ (.pair 1 true)))
  have e11 := Exec.step _ _ _ _ e10 (Step.ret _ 1 (.pair 1 true) rfl)
  have e12 := Exec.step _ _ _ _ e11 (Step.inv _ 0 (.store 8 5) rfl)
  have e13 := Exec.step _ _ _ _ e12 (Step.int _ 0 _ _ (TStep.st_slow _ 8 5 rfl))
  have e14 := Exec.step _ _ _ _ e13 (Step.int _ 0 _ _ (TStep.ins_dl _ (.store 8 5) 8 5 .unit ⟨rfl, rfl, rfl⟩ rfl rfl rfl rfl))
  have e15 := Exec.step _ _ _ _ e14 (Step.int _ 0 _ _ (TStep.dl_val _ (.store 8 5) 7 0 [] [] 1 rfl rfl))
  have e16 := Exec.step _ _ _ _ e15 (Step.int _ 0 _ _ (TStep.dl_end _ (.store 8 5) 8 5 .unit [(7, 0)] ⟨rfl, rfl, rfl⟩ rfl))
  have e17 := Exec.step _ _ _ _ e16 (Step.ret _ 0 .unit rfl)
  have e18 := Exec.step _ _ _ _ e17 (Step.inv _ 2 (.load 8) rfl)
  have e19 := Exec.step _ _ _ _ e18 (Step.int _ 2 _ _ (TStep.ld_slow _ 8 rfl rfl))
  have e20 := Exec.step _ _ _ _ e19 (Step.inv _ 1 (.loadAndDelete 8) rfl)
  have e21 := Exec.step _ _ _ _ e20 (Step.int _ 1 _ _ (TStep.de_slow _ (.loadAndDelete 8) 8 rfl rfl rfl))
  have e22 := Exec.step _ _ _ _ e21 (Step.int _ 2 _ _ (TStep.ldw_dirty _ 8 1 rfl rfl rfl rfl))
  have e23 := Exec.step _ _ _ _ e22 (Step.int _ 1 _ _ (TStep.dew_dirty _ (.loadAndDelete 8) 8 1 rfl rfl rfl rfl rfl))
  have e24 := Exec.step _ _ _ _ e23 (Step.int _ 2 _ _ (TStep.ldE _ 8 1))
  have e25 := Exec.step _ _ _ _ e24 (Step.int _ 1 _ _ (TStep.deT_val _ (.loadAndDelete 8) 8 1 true 5 rfl))
  have e26 := Exec.step _ _ _ _ e25 (Step.int _ 1 _ _ (TStep.deC_ok _ (.loadAndDelete 8) 8 1 5 true rfl))
  have e27 := Exec.step _ _ _ _ e26 (Step.ret _ 2 (.opt (some 5)) rfl)
  exact ⟨_, Exec.step _ _ _ _ e27 (Step.ret _ 1 (.opt (some 5)) rfl)⟩

/-- The hypotheses of the two theorems above are met: the first part of the race is a stretch without
deletions in which exactly one call creates. -/
example : NoDelete (K := Nat) (V := Nat) 7 []
    [.inv 0 (.loadOrCreate 7 [1]), .inv 1 (.loadOrCreate 7 [2]), .ret 0 (.pair 1 false), .ret 1 (.pair 1 true)] ∧
    creations (K := Nat) (V := Nat) 7
      [.inv 0 (.loadOrCreate 7 [1]), .inv 1 (.loadOrCreate 7 [2]), .ret 0 (.pair 1 false), .ret 1 (.pair 1 true)] = 1 := by
  refine ⟨⟨by intro t op h; simp [openOps] at h, ?_⟩, by decide⟩
  intro t op h
  simp at h
  rcases h with ⟨_, rfl⟩ | ⟨_, rfl⟩ <;> exact id

/-- With a deletion in between two calls may both create. -/
example : creations (K := Nat) (V := Nat) 7
    [.inv 0 (.loadOrCreate 7 [1]), .ret 0 (.pair 1 false), .inv 1 (.delete 7), .ret 1 .unit,
     .inv 0 (.loadOrCreate 7 [2]), .ret 0 (.pair 2 false)] = 2 := by decide

end Verif.SyncMap
