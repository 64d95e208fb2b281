import Verif.SyncMap.Lemmas
set_option linter.unusedSimpArgs false
set_option linter.unusedVariables false
set_option linter.unusedSectionVars false
namespace Verif.SyncMap
open Verif
variable {K V : Type} [DecidableEq K]

theorem abs_read (m : M K V) (k : K) (e : Nat) (h : m.read.get k = some e) : m.abs k = (m.ptr e).load := by
  simp [M.abs, M.cur, h]

theorem abs_dirty (m : M K V) (k : K) (h : m.read.get k = none) :
    m.abs k = match m.dirtyGet k with | some e => (m.ptr e).load | none => none := by
  simp only [M.abs, M.cur, h]; rfl

theorem dirty_of_amended (m : M K V) (hi : Inv m) (h : m.amended = true) : ∃ d, m.dirty = some d := by
  have := hi.am; rw [h] at this; exact Option.isSome_iff_exists.mp this.symm

theorem dirtyGet_of_not_amended (m : M K V) (hi : Inv m) (h : m.amended = false) (k : K) : m.dirtyGet k = none := by
  have := hi.am; rw [h] at this
  have : m.dirty = none := by simpa using this.symm
  simp [M.dirtyGet, this]

theorem dirty_of_dirtyGet (m : M K V) (k : K) (e : Nat) (h : m.dirtyGet k = some e) : ∃ d, m.dirty = some d := by
  cases hd : m.dirty with
  | none => simp [M.dirtyGet, hd] at h
  | some d => exact ⟨d, rfl⟩

theorem load_spec (m : M K V) (hi : Inv m) (k : K) :
    (m.load k).1 = m.abs k ∧ Inv (m.load k).2 ∧ ∀ k', (m.load k).2.abs k' = m.abs k' := by
  unfold M.load
  cases hr : m.read.get k with
  | some e => exact ⟨(abs_read m k e hr).symm, hi, fun _ => rfl⟩
  | none =>
    simp only
    cases ha : m.amended with
    | true =>
      obtain ⟨d, hd⟩ := dirty_of_amended m hi ha
      obtain ⟨h1, h2⟩ := missLocked_inv m hi d hd
      exact ⟨(abs_dirty m k hr).symm, h1, h2⟩
    | false =>
      refine ⟨?_, hi, fun _ => rfl⟩
      rw [abs_dirty m k hr, dirtyGet_of_not_amended m hi ha]; rfl

theorem store_spec (m : M K V) (hi : Inv m) (k : K) (v : V) :
    Inv (m.store k v) ∧ ∀ k', (m.store k v).abs k' = if k' = k then some v else m.abs k' := by
  unfold M.store
  cases hr : m.read.get k with
  | some e =>
    simp only
    have hn : m.ptr e ≠ .expunged → Inv (m.setPtr e (.val v)) ∧
        ∀ k', (m.setPtr e (.val v)).abs k' = if k' = k then some v else m.abs k' := fun hx =>
      ⟨setPtr_inv m hi k e (Or.inl hr) _ (by simp) hx,
       fun k' => setPtr_abs m hi k e (ent_cur m hi k e (Or.inl hr)) _ k'⟩
    cases hp : m.ptr e with
    | expunged =>
      obtain ⟨h1, h2, h3, h4⟩ := unexpunge_inv m hi k e hr hp
      refine ⟨setPtr_inv _ h1 k e (cur_ent _ k e h4) _ (by simp) (by simp [h3]), fun k' => ?_⟩
      rw [setPtr_abs _ h1 k e h4, h2]; rfl
    | nil => exact hn (by simp [hp])
    | val w => exact hn (by simp [hp])
  | none =>
    simp only
    cases hd : m.dirtyGet k with
    | some e =>
      exact ⟨setPtr_inv m hi k e (Or.inr hd) _ (by simp) (hi.dne k e hd),
        fun k' => setPtr_abs m hi k e (ent_cur m hi k e (Or.inr hd)) _ k'⟩
    | none => exact insertNew_inv m hi k v hr hd

/-- What `LoadOrStore` must do to a plain map. -/
def LosSpec (f : K → Option V) (k : K) (v : V) (r : V × Bool) (g : K → Option V) : Prop :=
  match f k with
  | some w => r = (w, true) ∧ ∀ k', g k' = f k'
  | none => r = (v, false) ∧ ∀ k', g k' = if k' = k then some v else f k'

theorem tryLoadOrStore_spec (m : M K V) (hi : Inv m) (k : K) (e : Nat) (he : m.Ent k e) (hx : m.ptr e ≠ .expunged)
    (v : V) : Inv (m.tryLoadOrStore e v).2 ∧
      LosSpec m.abs k v (m.tryLoadOrStore e v).1 (m.tryLoadOrStore e v).2.abs ∧
      (m.tryLoadOrStore e v).2.dirty = m.dirty := by
  have hc := ent_cur m hi k e he
  have ha : m.abs k = (m.ptr e).load := by simp [M.abs, hc]
  unfold M.tryLoadOrStore
  cases hp : m.ptr e with
  | val w =>
    refine ⟨hi, ?_, rfl⟩
    simp only [LosSpec, ha, hp, Ptr.load]
    simp
  | expunged => exact absurd hp hx
  | nil =>
    refine ⟨setPtr_inv m hi k e he _ (by simp) hx, ?_, rfl⟩
    simp only [LosSpec, ha, hp, Ptr.load]
    exact ⟨trivial, fun k' => setPtr_abs m hi k e hc _ k'⟩

theorem loadOrStore_spec (m : M K V) (hi : Inv m) (k : K) (v : V) :
    Inv (m.loadOrStore k v).2 ∧ LosSpec m.abs k v (m.loadOrStore k v).1 (m.loadOrStore k v).2.abs := by
  unfold M.loadOrStore
  cases hr : m.read.get k with
  | some e =>
    simp only
    have hn : m.ptr e ≠ .expunged → _ := fun hx => tryLoadOrStore_spec m hi k e (Or.inl hr) hx v
    cases hp : m.ptr e with
    | expunged =>
      obtain ⟨h1, h2, h3, h4⟩ := unexpunge_inv m hi k e hr hp
      obtain ⟨a, b, _⟩ := tryLoadOrStore_spec _ h1 k e (cur_ent _ k e h4) (by simp [h3]) v
      refine ⟨a, ?_⟩
      simp only
      have hf : (m.unexpunge k e).abs = m.abs := funext h2
      rw [hf] at b; exact b
    | nil => exact ⟨(hn (by simp [hp])).1, (hn (by simp [hp])).2.1⟩
    | val w => exact ⟨(hn (by simp [hp])).1, (hn (by simp [hp])).2.1⟩
  | none =>
    simp only
    cases hd : m.dirtyGet k with
    | some e =>
      obtain ⟨a, b, c⟩ := tryLoadOrStore_spec m hi k e (Or.inr hd) (hi.dne k e hd) v
      obtain ⟨d, hdd⟩ := dirty_of_dirtyGet m k e hd
      obtain ⟨h1, h2⟩ := missLocked_inv (m.tryLoadOrStore e v).2 a d (by rw [c, hdd])
      refine ⟨h1, ?_⟩
      simp only
      have hf := funext h2
      rw [hf]; exact b
    | none =>
      obtain ⟨h1, h2⟩ := insertNew_inv m hi k v hr hd
      refine ⟨h1, ?_⟩
      have : m.abs k = none := by rw [abs_dirty m k hr, hd]
      simp only [LosSpec, this]
      exact ⟨trivial, h2⟩

/-- Removing `k` from the dirty map when it is not in the read map. -/
theorem dirtyDel_inv (m : M K V) (hi : Inv m) (d : AMap K Nat) (hd : m.dirty = some d) (k : K)
    (hr : m.read.get k = none) :
    Inv { m with dirty := some (d.del k) } ∧
    ∀ k', M.abs { m with dirty := some (d.del k) } k' = if k' = k then none else m.abs k' := by
  have hdg : ∀ k', M.dirtyGet { m with dirty := some (d.del k) } k' = if k = k' then none else m.dirtyGet k' := by
    intro k'; simp only [M.dirtyGet, hd, AMap.get_del]
  have hsub : ∀ k' e, M.Ent { m with dirty := some (d.del k) } k' e → m.Ent k' e := by
    intro k' e h
    rcases h with h | h
    · exact Or.inl h
    · rw [hdg] at h; split at h
      · simp at h
      · exact Or.inr h
  constructor
  · constructor
    · simp only [Option.isSome_some]; rw [hi.am, hd]; rfl
    · intro k' e h; exact hi.bound k' e (hsub k' e h)
    · intro a b e h1 h2; exact hi.inj a b e (hsub a e h1) (hsub b e h2)
    · intro d' hd' k' e h
      simp at hd'; subst hd'
      have hne : k ≠ k' := by rintro rfl; rw [hr] at h; simp at h
      rw [AMap.get_del, if_neg hne]
      exact hi.rd d hd k' e h
    · intro h; simp at h
    · intro k' e h; rw [hdg] at h; split at h
      · simp at h
      · exact hi.dne k' e h
    · exact hi.rnd
    · intro d' hd'; simp at hd'; subst hd'; exact AMap.nodup_del (hi.dnd d hd) k
  · intro k'
    simp only [M.abs, M.cur, hdg]
    by_cases h : k' = k
    · subst h; simp [hr]
    · simp only [if_neg h, if_neg (Ne.symm h)]; rfl

theorem missLocked_ptr (m : M K V) (e : Nat) : m.missLocked.ptr e = m.ptr e := by
  unfold M.missLocked; split <;> rfl

theorem missLocked_heap (m : M K V) : m.missLocked.heap = m.heap := by
  unfold M.missLocked; split <;> rfl

theorem missLocked_ent (m : M K V) (k : K) (e : Nat) (h : m.missLocked.Ent k e) : m.Ent k e := by
  unfold M.missLocked at h
  split at h
  · exact h
  · rcases h with h | h
    · right
      simp only [M.dirtyGet]
      cases hd : m.dirty with
      | none => simp [hd] at h
      | some d => simpa [hd] using h
    · simp [M.dirtyGet] at h

/-- Writing a cell that no map mentions changes nothing. -/
theorem orphan_setPtr (m : M K V) (hi : Inv m) (e : Nat) (he : ∀ k, ¬ m.Ent k e) (p : Ptr V) :
    Inv (m.setPtr e p) ∧ ∀ k, (m.setPtr e p).abs k = m.abs k := by
  have hp : ∀ e', e ≠ e' → (m.setPtr e p).ptr e' = m.ptr e' := by
    intro e' hne
    simp only [M.setPtr, M.ptr, List.getD_eq_getElem?_getD, List.getElem?_set]
    simp [hne]
  have hne : ∀ k e', m.Ent k e' → e ≠ e' := by rintro k e' h rfl; exact he k h
  constructor
  · constructor
    · exact hi.am
    · intro k e' h; rw [setPtr_len]; exact hi.bound k e' h
    · exact hi.inj
    · intro d hd k e' hr; rw [hp e' (hne k e' (Or.inl hr))]; exact hi.rd d hd k e' hr
    · intro hd k e' hr; rw [hp e' (hne k e' (Or.inl hr))]; exact hi.nd hd k e' hr
    · intro k e' hr; rw [hp e' (hne k e' (Or.inr hr))]; exact hi.dne k e' hr
    · exact hi.rnd
    · exact hi.dnd
  · intro k
    simp only [M.abs, setPtr_cur]
    cases hc : m.cur k with
    | none => rfl
    | some e' => simp only; rw [hp e' (hne k e' (cur_ent m k e' hc))]

theorem loadAndDelete_spec (m : M K V) (hi : Inv m) (k : K) :
    (m.loadAndDelete k).1 = m.abs k ∧ Inv (m.loadAndDelete k).2 ∧
      ∀ k', (m.loadAndDelete k).2.abs k' = if k' = k then none else m.abs k' := by
  unfold M.loadAndDelete
  cases hr : m.read.get k with
  | some e =>
    simp only [M.deleteEntry]
    have ha := abs_read m k e hr
    have hc := ent_cur m hi k e (Or.inl hr)
    have triv : (m.ptr e).load = none → ∀ k', m.abs k' = if k' = k then none else m.abs k' := by
      intro h k'; by_cases hk : k' = k
      · subst hk; simp [ha, h]
      · simp [hk]
    cases hp : m.ptr e with
    | val v =>
      refine ⟨by simp [ha, hp, Ptr.load], setPtr_inv m hi k e (Or.inl hr) _ (by simp) (by simp [hp]), fun k' => ?_⟩
      rw [setPtr_abs m hi k e hc]; rfl
    | nil => exact ⟨by simp [ha, hp, Ptr.load], hi, triv (by simp [hp, Ptr.load])⟩
    | expunged => exact ⟨by simp [ha, hp, Ptr.load], hi, triv (by simp [hp, Ptr.load])⟩
  | none =>
    simp only
    have ha := abs_dirty m k hr
    by_cases ham : m.amended = true
    case neg =>
      rw [if_neg ham]
      have ham : m.amended = false := by simpa using ham
      have hn := dirtyGet_of_not_amended m hi ham k
      rw [hn] at ha
      refine ⟨by simp [ha], hi, fun k' => ?_⟩
      by_cases hk : k' = k
      · subst hk; simp [ha]
      · simp [hk]
    case pos =>
      rw [if_pos ham]
      obtain ⟨d, hd⟩ := dirty_of_amended m hi ham
      obtain ⟨h1, h2⟩ := dirtyDel_inv m hi d hd k hr
      obtain ⟨h3, h4⟩ := missLocked_inv { m with dirty := some (d.del k) } h1 (d.del k) rfl
      have h5 : ∀ k', M.abs (M.missLocked { m with dirty := some (d.del k) }) k' =
          if k' = k then none else m.abs k' := fun k' => by rw [h4, h2]
      simp only [hd, Option.map_some]
      cases hg : m.dirtyGet k with
      | none => rw [hg] at ha; exact ⟨by simp [ha], h3, h5⟩
      | some e =>
        simp only
        rw [hg] at ha
        have horph : ∀ k', ¬ M.Ent (M.missLocked { m with dirty := some (d.del k) }) k' e := by
          intro k' h
          have h := missLocked_ent _ k' e h
          have hk' : k' = k := by
            apply hi.inj k' k e ?_ (Or.inr hg)
            rcases h with h | h
            · exact Or.inl h
            · simp only [M.dirtyGet, AMap.get_del] at h
              split at h
              · simp at h
              · exact Or.inr (by simp [M.dirtyGet, hd, h])
          subst hk'
          rcases h with h | h
          · simp only at h; rw [hr] at h; simp at h
          · simp [M.dirtyGet] at h
        unfold M.deleteEntry
        have hpp : M.ptr (M.missLocked { m with dirty := some (d.del k) }) e = m.ptr e := by
          rw [missLocked_ptr]; rfl
        rw [hpp]
        cases hp : m.ptr e with
        | val v =>
          obtain ⟨h6, h7⟩ := orphan_setPtr _ h3 e horph (.nil)
          refine ⟨by simp [ha, hp, Ptr.load], h6, fun k' => ?_⟩
          rw [h7, h5]
        | nil => exact ⟨by simp [ha, hp, Ptr.load], h3, h5⟩
        | expunged => exact ⟨by simp [ha, hp, Ptr.load], h3, h5⟩

theorem range_spec (m : M K V) (hi : Inv m) :
    (((m.range).1.map Prod.fst).Nodup ∧ ∀ k v, (k, v) ∈ (m.range).1 ↔ m.abs k = some v) ∧
    Inv (m.range).2 ∧ ∀ k', (m.range).2.abs k' = m.abs k' := by
  have hpr : Inv m.promote ∧ (∀ k, m.promote.abs k = m.abs k) ∧ m.promote.amended = false := by
    unfold M.promote
    cases ha : m.amended with
    | true =>
      obtain ⟨d, hd⟩ := dirty_of_amended m hi ha
      obtain ⟨h1, h2⟩ := promoted_inv m hi d hd
      exact ⟨h1, h2, rfl⟩
    | false => exact ⟨hi, fun _ => rfl, by simp [ha]⟩
  obtain ⟨hi', h2, h3⟩ := hpr
  unfold M.range
  simp only
  refine ⟨⟨?_, ?_⟩, hi', h2⟩
  · have hn := hi'.rnd
    generalize m.promote = m' at hn
    generalize m'.read = r at hn
    revert hn
    induction r with
    | nil => simp
    | cons x r ih =>
      intro hn
      simp only [AMap.keys, List.map_cons, List.nodup_cons] at hn
      simp only [List.filterMap_cons]
      cases (m'.ptr x.2).load with
      | none => exact ih hn.2
      | some v =>
        simp only [Option.map_some, List.map_cons, List.nodup_cons]
        refine ⟨?_, ih hn.2⟩
        intro h
        simp only [List.mem_map, List.mem_filterMap, Option.map_eq_some_iff] at h
        obtain ⟨⟨a, b⟩, ⟨y, hy, w, hw, hyw⟩, hax⟩ := h
        simp only [Prod.mk.injEq] at hyw
        apply hn.1
        simp only at hax
        rw [← hax, ← hyw.1]
        exact List.mem_map_of_mem (f := Prod.fst) hy
  · intro k v
    rw [← h2 k]
    simp only [List.mem_filterMap, Option.map_eq_some_iff, Prod.mk.injEq]
    constructor
    · rintro ⟨⟨k', e⟩, hm, w, hw, rfl, rfl⟩
      rw [abs_read _ _ e (AMap.get_of_mem hi'.rnd hm)]; exact hw
    · intro h
      cases hr : m.promote.read.get k with
      | none =>
        rw [abs_dirty _ k hr, dirtyGet_of_not_amended _ hi' h3] at h; simp at h
      | some e =>
        rw [abs_read _ k e hr] at h
        exact ⟨(k, e), AMap.mem_of_get _ hr, v, h, rfl, rfl⟩

theorem step_spec (m : M K V) (hi : Inv m) (o : Op K V) :
    Inv (step m o).2 ∧ Spec m.abs o (step m o).1 (step m o).2.abs := by
  cases o with
  | load k =>
    obtain ⟨h1, h2, h3⟩ := load_spec m hi k
    exact ⟨h2, by simp only [step, Spec]; exact ⟨by rw [h1], funext h3⟩⟩
  | store k v =>
    obtain ⟨h1, h2⟩ := store_spec m hi k v
    exact ⟨h1, rfl, funext h2⟩
  | loadOrStore k v =>
    obtain ⟨h1, h2⟩ := loadOrStore_spec m hi k v
    refine ⟨h1, ?_⟩
    simp only [step, Spec]
    simp only [LosSpec] at h2
    cases hf : m.abs k with
    | none => rw [hf] at h2; simp only at h2 ⊢; exact ⟨by rw [h2.1], funext h2.2⟩
    | some w => rw [hf] at h2; simp only at h2 ⊢; exact ⟨by rw [h2.1], funext h2.2⟩
  | loadOrCreate k v =>
    obtain ⟨h1, h2⟩ := loadOrStore_spec m hi k v
    refine ⟨h1, ?_⟩
    simp only [step, Spec]
    simp only [LosSpec] at h2
    cases hf : m.abs k with
    | none => rw [hf] at h2; simp only at h2 ⊢; exact ⟨by rw [h2.1], funext h2.2⟩
    | some w => rw [hf] at h2; simp only at h2 ⊢; exact ⟨by rw [h2.1], funext h2.2⟩
  | loadAndDelete k =>
    obtain ⟨h1, h2, h3⟩ := loadAndDelete_spec m hi k
    exact ⟨h2, by simp only [step, Spec]; exact ⟨by rw [h1], funext h3⟩⟩
  | delete k =>
    obtain ⟨h1, h2, h3⟩ := loadAndDelete_spec m hi k
    exact ⟨h2, rfl, funext h3⟩
  | range =>
    obtain ⟨h1, h2, h3⟩ := range_spec m hi
    exact ⟨h2, funext h3, (m.range).1, rfl, h1.1, h1.2⟩

theorem run_legal (ops : List (Op K V)) (m : M K V) (hi : Inv m) : Legal m.abs ops (run ops m).1 := by
  induction ops generalizing m with
  | nil => simp [run, Legal]
  | cons o os ih =>
    obtain ⟨h1, h2⟩ := step_spec m hi o
    simp only [run, Legal]
    exact ⟨_, h2, ih _ h1⟩

/-- C15. Used by one goroutine at a time, the map returns exactly what a plain map returns, for every
sequence of `Load`, `Store`, `LoadOrStore`, `LoadOrCreate`, `LoadAndDelete`, `Delete` and `Range`. -/
theorem map_is_a_map (ops : List (Op K V)) : Legal (fun _ => none) ops (run ops (empty : M K V)).1 := by
  have h := run_legal ops (empty : M K V) Inv.empty
  have : (empty : M K V).abs = fun _ => none := by
    funext k; simp [M.abs, M.cur, M.dirtyGet, SyncMap.empty]
  rw [this] at h; exact h

/-- Witness: a run through promotion, expunging and resurrection. -/
example : (run [Op.store 1 10, .load 2, .delete 1, .store 3 30, .loadOrStore 1 11, .load 1, .loadAndDelete 3,
      .range, .loadOrStore 1 12, .load 3] (empty : M Nat Nat)).1 =
    [.unit, .opt none, .unit, .unit, .pair 11 false, .opt (some 11), .opt (some 30), .list [(1, 11)],
      .pair 11 true, .opt none] := by decide +kernel

end Verif.SyncMap
