import Verif.SyncMap.Model
set_option linter.unusedSimpArgs false
set_option linter.unusedVariables false
set_option linter.unusedSectionVars false
namespace Verif.SyncMap
open Verif
variable {K V : Type} [DecidableEq K]

/-- The entry that currently serves key `k`. -/
def M.cur (m : M K V) (k : K) : Option Nat :=
  match m.read.get k with
  | some e => some e
  | none => m.dirtyGet k

/-- Abstraction: the plain map the structure stands for. -/
def M.abs (m : M K V) (k : K) : Option V :=
  match m.cur k with
  | some e => (m.ptr e).load
  | none => none

/-- `e` is in one of the two maps under `k`. -/
def M.Ent (m : M K V) (k : K) (e : Nat) : Prop := m.read.get k = some e ∨ m.dirtyGet k = some e

structure Inv (m : M K V) : Prop where
  am : m.amended = m.dirty.isSome
  bound : ∀ k e, m.Ent k e → e < m.heap.length
  inj : ∀ k k' e, m.Ent k e → m.Ent k' e → k = k'
  rd : ∀ d, m.dirty = some d → ∀ k e, m.read.get k = some e →
    (m.ptr e = .expunged ∧ d.get k = none) ∨ (m.ptr e ≠ .expunged ∧ d.get k = some e)
  nd : m.dirty = none → ∀ k e, m.read.get k = some e → m.ptr e ≠ .expunged
  dne : ∀ k e, m.dirtyGet k = some e → m.ptr e ≠ .expunged
  rnd : (m.read.keys).Nodup
  dnd : ∀ d, m.dirty = some d → d.keys.Nodup

theorem Inv.empty : Inv (empty : M K V) := by
  constructor <;> simp [SyncMap.empty, M.Ent, M.dirtyGet, AMap.keys]

@[simp] theorem setPtr_read (m : M K V) (e p) : (m.setPtr e p).read = m.read := rfl
@[simp] theorem setPtr_dirty (m : M K V) (e p) : (m.setPtr e p).dirty = m.dirty := rfl
@[simp] theorem setPtr_amended (m : M K V) (e p) : (m.setPtr e p).amended = m.amended := rfl
@[simp] theorem setPtr_dirtyGet (m : M K V) (e p k) : (m.setPtr e p).dirtyGet k = m.dirtyGet k := rfl
@[simp] theorem setPtr_cur (m : M K V) (e p k) : (m.setPtr e p).cur k = m.cur k := rfl
@[simp] theorem setPtr_len (m : M K V) (e p) : (m.setPtr e p).heap.length = m.heap.length := by
  simp [M.setPtr]

theorem setPtr_ptr (m : M K V) (e e' : Nat) (p : Ptr V) (h : e < m.heap.length) :
    (m.setPtr e p).ptr e' = if e = e' then p else m.ptr e' := by
  simp only [M.setPtr, M.ptr, List.getD_eq_getElem?_getD, List.getElem?_set]
  split
  · simp [h]
  · rfl

theorem cur_ent (m : M K V) (k : K) (e : Nat) (h : m.cur k = some e) : m.Ent k e := by
  simp only [M.cur] at h
  split at h
  · rename_i e' he; simp at h; subst h; exact Or.inl he
  · exact Or.inr h

/-- Inside the invariant an entry in either map is the current one of its key — unless expunged. -/
theorem ent_cur (m : M K V) (hi : Inv m) (k : K) (e : Nat) (h : m.Ent k e) : m.cur k = some e := by
  simp only [M.cur]
  rcases h with h | h
  · rw [h]
  · cases hr : m.read.get k with
    | none => exact h
    | some e' =>
      simp only
      cases hd : m.dirty with
      | none => simp [M.dirtyGet, hd] at h
      | some d =>
        simp only [M.dirtyGet, hd] at h
        rcases hi.rd d hd k e' hr with ⟨_, h2⟩ | ⟨_, h2⟩
        · rw [h] at h2; simp at h2
        · rw [h] at h2; exact h2.symm

/-- Writing a non-expunged value to the (non-expunged) current entry of `k`. -/
theorem setPtr_inv (m : M K V) (hi : Inv m) (k : K) (e : Nat) (he : m.Ent k e) (p : Ptr V)
    (hp : p ≠ .expunged) (hpe : m.ptr e ≠ .expunged) : Inv (m.setPtr e p) := by
  have hb := hi.bound k e he
  have hx : ∀ e', (m.setPtr e p).ptr e' = .expunged ↔ m.ptr e' = .expunged := by
    intro e'
    rw [setPtr_ptr m e e' p hb]
    split
    · rename_i h; subst h; simp [hp, hpe]
    · rfl
  constructor
  · exact hi.am
  · intro k e h; rw [setPtr_len]; exact hi.bound k e h
  · exact hi.inj
  · intro d hd k e' hr
    rcases hi.rd d hd k e' hr with ⟨h1, h2⟩ | ⟨h1, h2⟩
    · exact Or.inl ⟨(hx e').mpr h1, h2⟩
    · exact Or.inr ⟨fun h => h1 ((hx e').mp h), h2⟩
  · intro hd k e' hr h; exact hi.nd hd k e' hr ((hx e').mp h)
  · intro k e' hr h; exact hi.dne k e' hr ((hx e').mp h)
  · exact hi.rnd
  · exact hi.dnd

theorem setPtr_abs (m : M K V) (hi : Inv m) (k : K) (e : Nat) (he : m.cur k = some e) (p : Ptr V) (k' : K) :
    (m.setPtr e p).abs k' = if k' = k then p.load else m.abs k' := by
  have hb := hi.bound k e (cur_ent m k e he)
  simp only [M.abs, setPtr_cur]
  by_cases h : k' = k
  · subst h; rw [he]; simp [setPtr_ptr m e e p hb]
  · rw [if_neg h]
    cases hc : m.cur k' with
    | none => rfl
    | some e' =>
      simp only
      rw [setPtr_ptr m e e' p hb, if_neg]
      rintro rfl
      exact h (hi.inj k' k e (cur_ent m k' e hc) (cur_ent m k e he))

/-! ### Promotion -/

/-- `m.read.Store(readOnly{m: m.dirty}); m.dirty = nil; m.misses = 0`. -/
def M.promoted (m : M K V) : M K V :=
  { m with read := m.dirty.getD [], amended := false, dirty := none, misses := 0 }

theorem promoted_inv (m : M K V) (hi : Inv m) (d : AMap K Nat) (hd : m.dirty = some d) :
    Inv m.promoted ∧ ∀ k, m.promoted.abs k = m.abs k := by
  have hg : ∀ k, m.promoted.read.get k = m.dirtyGet k := by
    intro k; simp [M.promoted, M.dirtyGet, hd]
  have hdg : ∀ k, m.promoted.dirtyGet k = none := by intro k; simp [M.promoted, M.dirtyGet]
  have hp : ∀ e, m.promoted.ptr e = m.ptr e := fun _ => rfl
  constructor
  · constructor
    · simp [M.promoted]
    · intro k e h
      rcases h with h | h
      · rw [hg] at h; exact hi.bound k e (Or.inr h)
      · rw [hdg] at h; simp at h
    · intro k k' e h h'
      rcases h with h | h
      · rcases h' with h' | h'
        · rw [hg] at h h'; exact hi.inj k k' e (Or.inr h) (Or.inr h')
        · rw [hdg] at h'; simp at h'
      · rw [hdg] at h; simp at h
    · intro d' hd'; simp [M.promoted] at hd'
    · intro _ k e h; rw [hg] at h; rw [hp]; exact hi.dne k e h
    · intro k e h; rw [hdg] at h; simp at h
    · simp only [M.promoted, hd, Option.getD_some]; exact hi.dnd d hd
    · intro d' hd'; simp [M.promoted] at hd'
  · intro k
    have hc : m.promoted.cur k = m.dirtyGet k := by
      simp only [M.cur, hg, hdg]; cases m.dirtyGet k <;> rfl
    simp only [M.abs, hc, hp]
    cases hr : m.read.get k with
    | none => simp [M.cur, hr]
    | some e =>
      simp only [M.cur, hr]
      have := hi.rd d hd k e hr
      simp only [M.dirtyGet, hd]
      rcases this with ⟨h1, h2⟩ | ⟨h1, h2⟩
      · rw [h2]; simp [h1, Ptr.load]
      · rw [h2]

theorem missLocked_inv (m : M K V) (hi : Inv m) (d : AMap K Nat) (hd : m.dirty = some d) :
    Inv m.missLocked ∧ ∀ k, m.missLocked.abs k = m.abs k := by
  unfold M.missLocked
  split
  · exact ⟨⟨hi.am, hi.bound, hi.inj, hi.rd, hi.nd, hi.dne, hi.rnd, hi.dnd⟩, fun k => rfl⟩
  · exact promoted_inv m hi d hd

/-! ### `dirtyLocked` -/

open scoped Classical in
theorem dirtyCopy_spec (r : AMap K Nat) (m : M K V) (d : AMap K Nat)
    (hb : ∀ k e, (k, e) ∈ r → e < m.heap.length)
    (hnr : r.keys.Nodup) (hne : ∀ k e k' e', (k, e) ∈ r → (k', e') ∈ r → e = e' → k = k')
    (hdis : ∀ k ∈ r.keys, k ∉ d.keys) (hdn : d.keys.Nodup) :
    ∃ m' d', dirtyCopy r m d = (m', d') ∧ m'.read = m.read ∧ m'.amended = m.amended ∧ m'.dirty = m.dirty ∧
      m'.misses = m.misses ∧ m'.heap.length = m.heap.length ∧ d'.keys.Nodup ∧
      (∀ e, m'.ptr e = if (∃ k, (k, e) ∈ r) ∧ m.ptr e = .nil then .expunged else m.ptr e) ∧
      (∀ k e, d'.get k = some e ↔ (d.get k = some e ∨ ((k, e) ∈ r ∧ ∃ v, m.ptr e = .val v))) := by
  induction r generalizing m d with
  | nil =>
    refine ⟨m, d, rfl, rfl, rfl, rfl, rfl, rfl, hdn, ?_, ?_⟩
    · intro e; simp
    · intro k e; simp
  | cons x r ih =>
    obtain ⟨k0, e0⟩ := x
    have hk0 : k0 ∉ AMap.keys r := by
      simp only [AMap.keys, List.map_cons, List.nodup_cons] at hnr; exact hnr.1
    have hnr' : (AMap.keys r).Nodup := by
      simp only [AMap.keys, List.map_cons, List.nodup_cons] at hnr; exact hnr.2
    have hb0 : e0 < m.heap.length := hb k0 e0 (by simp)
    have he0 : ∀ k, (k, e0) ∉ r := by
      intro k hk
      have := hne k0 e0 k e0 (by simp) (by simp [hk]) rfl
      subst this
      exact hk0 (List.mem_map_of_mem (f := Prod.fst) hk)
    have hne' : ∀ k e k' e', (k, e) ∈ r → (k', e') ∈ r → e = e' → k = k' :=
      fun k e k' e' h h' => hne k e k' e' (by simp [h]) (by simp [h'])
    have hdis' : ∀ k ∈ AMap.keys r, k ∉ d.keys := fun k hk => hdis k (by simp only [AMap.keys, List.map_cons, List.mem_cons]; exact Or.inr hk)
    have hk0d : k0 ∉ d.keys := hdis k0 (by simp [AMap.keys])
    simp only [dirtyCopy]
    cases hp : m.ptr e0 with
    | nil =>
      simp only
      obtain ⟨m', d', h1, h2, h3, h4, h5, h6, h7, h8, h9⟩ := ih (m.setPtr e0 .expunged) d
        (fun k e h => by rw [setPtr_len]; exact hb k e (by simp [h])) hnr' hne' hdis' hdn
      refine ⟨m', d', h1, h2, h3, h4, h5, by rw [h6, setPtr_len], h7, ?_, ?_⟩
      · intro e
        rw [h8 e, setPtr_ptr m e0 e _ hb0]
        by_cases h : e0 = e
        · subst h; simp [hp]
        · simp only [h, if_false, List.mem_cons, Prod.mk.injEq]
          have : ∀ k, ((k = k0 ∧ e = e0) ∨ (k, e) ∈ r) ↔ (k, e) ∈ r := by
            intro k; constructor
            · rintro (⟨_, h2⟩ | h2)
              · exact absurd h2.symm h
              · exact h2
            · exact Or.inr
          simp only [this]
      · intro k e
        rw [h9 k e]
        constructor
        · rintro (h | ⟨h, v, hv⟩)
          · exact Or.inl h
          · right
            refine ⟨by simp [h], v, ?_⟩
            rw [setPtr_ptr m e0 e _ hb0] at hv
            split at hv
            · simp at hv
            · exact hv
        · rintro (h | ⟨h, v, hv⟩)
          · exact Or.inl h
          · right
            simp only [List.mem_cons, Prod.mk.injEq] at h
            rcases h with ⟨rfl, rfl⟩ | h
            · rw [hp] at hv; simp at hv
            · refine ⟨h, v, ?_⟩
              rw [setPtr_ptr m e0 e _ hb0, if_neg]
              · exact hv
              · rintro rfl; exact he0 k h
    | expunged =>
      simp only
      obtain ⟨m', d', h1, h2, h3, h4, h5, h6, h7, h8, h9⟩ := ih m d
        (fun k e h => hb k e (by simp [h])) hnr' hne' hdis' hdn
      refine ⟨m', d', h1, h2, h3, h4, h5, h6, h7, ?_, ?_⟩
      · intro e
        rw [h8 e]
        by_cases h : e0 = e
        · subst h; simp [hp]
        · simp only [List.mem_cons, Prod.mk.injEq]
          have : ∀ k, ((k = k0 ∧ e = e0) ∨ (k, e) ∈ r) ↔ (k, e) ∈ r := by
            intro k; constructor
            · rintro (⟨_, h2⟩ | h2)
              · exact absurd h2.symm h
              · exact h2
            · exact Or.inr
          simp only [this]
      · intro k e
        rw [h9 k e]
        constructor
        · rintro (h | ⟨h, v⟩)
          · exact Or.inl h
          · exact Or.inr ⟨by simp [h], v⟩
        · rintro (h | ⟨h, v, hv⟩)
          · exact Or.inl h
          · right
            simp only [List.mem_cons, Prod.mk.injEq] at h
            rcases h with ⟨rfl, rfl⟩ | h
            · rw [hp] at hv; simp at hv
            · exact ⟨h, v, hv⟩
    | val v0 =>
      simp only
      obtain ⟨m', d', h1, h2, h3, h4, h5, h6, h7, h8, h9⟩ := ih m (d.set k0 e0)
        (fun k e h => hb k e (by simp [h])) hnr' hne'
        (fun k hk => by
          rw [AMap.keys_set]
          split
          · exact hdis' k hk
          · simp only [List.mem_append, List.mem_singleton, not_or]
            exact ⟨hdis' k hk, by rintro rfl; exact hk0 hk⟩)
        (AMap.nodup_set hdn _ _)
      refine ⟨m', d', h1, h2, h3, h4, h5, h6, h7, ?_, ?_⟩
      · intro e
        rw [h8 e]
        by_cases h : e0 = e
        · subst h; simp [hp]
        · simp only [List.mem_cons, Prod.mk.injEq]
          have : ∀ k, ((k = k0 ∧ e = e0) ∨ (k, e) ∈ r) ↔ (k, e) ∈ r := by
            intro k; constructor
            · rintro (⟨_, h2⟩ | h2)
              · exact absurd h2.symm h
              · exact h2
            · exact Or.inr
          simp only [this]
      · intro k e
        rw [h9 k e, AMap.get_set]
        constructor
        · rintro (h | ⟨h, v⟩)
          · split at h
            · rename_i hk; subst hk; simp at h; subst h
              exact Or.inr ⟨by simp, v0, hp⟩
            · exact Or.inl h
          · exact Or.inr ⟨by simp [h], v⟩
        · rintro (h | ⟨h, v, hv⟩)
          · left
            rw [if_neg]
            · exact h
            · rintro rfl
              rw [AMap.get_eq_none_iff d k0 |>.mpr hk0d] at h; simp at h
          · simp only [List.mem_cons, Prod.mk.injEq] at h
            rcases h with ⟨rfl, rfl⟩ | h
            · left; simp
            · exact Or.inr ⟨h, v, hv⟩

open scoped Classical in
/-- `dirtyLocked` on a clean map followed by marking the read map amended. -/
theorem dirtyLocked_inv (m : M K V) (hi : Inv m) (hd : m.dirty = none) :
    Inv { m.dirtyLocked with amended := true } ∧
    (∀ k, M.abs { m.dirtyLocked with amended := true } k = m.abs k) ∧
    m.dirtyLocked.heap.length = m.heap.length ∧ m.dirtyLocked.read = m.read ∧
    (∀ k, m.read.get k = none → m.dirtyLocked.dirtyGet k = none) ∧
    (∀ e, m.dirtyLocked.ptr e = m.ptr e ∨ (m.ptr e = .nil ∧ m.dirtyLocked.ptr e = .expunged)) := by
  have hmem : ∀ k e, (k, e) ∈ m.read ↔ m.read.get k = some e :=
    fun k e => ⟨AMap.get_of_mem hi.rnd, AMap.mem_of_get _⟩
  obtain ⟨m', d', h1, h2, h3, h4, h5, h6, h7, h8, h9⟩ := dirtyCopy_spec m.read m []
    (fun k e h => hi.bound k e (Or.inl ((hmem k e).mp h))) hi.rnd
    (fun k e k' e' h h' hee => by
      subst hee
      exact hi.inj k k' e (Or.inl ((hmem k e).mp h)) (Or.inl ((hmem k' e).mp h')))
    (by simp [AMap.keys]) (by simp [AMap.keys])
  have hdl : m.dirtyLocked = { m' with dirty := some d' } := by
    simp only [M.dirtyLocked, hd, h1]
  have h9' : ∀ k e, d'.get k = some e ↔ (m.read.get k = some e ∧ ∃ v, m.ptr e = .val v) := by
    intro k e; rw [h9 k e, hmem]; simp
  have hptr : ∀ e, m.dirtyLocked.ptr e = m'.ptr e := by intro e; rw [hdl]; rfl
  have hsub : ∀ k e, d'.get k = some e → m.read.get k = some e := fun k e h => ((h9' k e).mp h).1
  have hx : ∀ k e, m.read.get k = some e → (m'.ptr e = .expunged ∧ d'.get k = none) ∨
      (m'.ptr e ≠ .expunged ∧ d'.get k = some e ∧ m'.ptr e = m.ptr e) := by
    intro k e hr
    have hne := hi.nd hd k e hr
    rw [h8 e]
    cases hp : m.ptr e with
    | nil =>
      left
      constructor
      · rw [if_pos ⟨⟨k, (hmem k e).mpr hr⟩, rfl⟩]
      · cases hq : d'.get k with
        | none => rfl
        | some e' =>
          obtain ⟨hr', v, hv⟩ := (h9' k e').mp hq
          rw [hr] at hr'; simp at hr'; subst hr'; rw [hp] at hv; simp at hv
    | expunged => exact absurd hp hne
    | val v =>
      right
      refine ⟨by simp, (h9' k e).mpr ⟨hr, v, hp⟩, by simp⟩
  rw [hdl]
  refine ⟨?_, ?_, by simpa using h6, by simpa using h2, ?_, ?_⟩
  · constructor
    · simp
    · intro k e h
      simp only [M.Ent, M.dirtyGet] at h
      simp only [h6]
      rcases h with h | h
      · rw [h2] at h; exact hi.bound k e (Or.inl h)
      · exact hi.bound k e (Or.inl (hsub k e h))
    · intro k k' e h h'
      simp only [M.Ent, M.dirtyGet, h2] at h h'
      have g : m.read.get k = some e := h.elim id (hsub k e)
      have g' : m.read.get k' = some e := h'.elim id (hsub k' e)
      exact hi.inj k k' e (Or.inl g) (Or.inl g')
    · intro d hdd k e hr
      simp at hdd; subst hdd
      simp only [h2] at hr
      rcases hx k e hr with ⟨a, b⟩ | ⟨a, b, _⟩
      · exact Or.inl ⟨a, b⟩
      · exact Or.inr ⟨a, b⟩
    · intro h; simp at h
    · intro k e h
      simp only [M.dirtyGet] at h
      have hr := hsub k e h
      rcases hx k e hr with ⟨a, b⟩ | ⟨a, b, _⟩
      · rw [h] at b; simp at b
      · exact a
    · simp only [h2]; exact hi.rnd
    · intro d hdd; simp at hdd; subst hdd; exact h7
  · intro k
    have hcm : m.cur k = m.read.get k := by
      simp only [M.cur, M.dirtyGet, hd]; cases m.read.get k <;> rfl
    simp only [M.abs, hcm]
    cases hr : m.read.get k with
    | none =>
      simp only [M.cur, h2, hr, M.dirtyGet]
      cases hq : d'.get k with
      | none => rfl
      | some e => rw [hsub k e hq] at hr; simp at hr
    | some e =>
      simp only [M.cur, h2, hr]
      show (m'.ptr e).load = _
      have := h8 e
      rw [this]
      split
      · rename_i h; simp [h.2, Ptr.load]
      · rfl
  · intro k hr
    simp only [M.dirtyGet]
    cases hq : d'.get k with
    | none => rfl
    | some e => rw [hsub k e hq] at hr; simp at hr
  · intro e
    show m'.ptr e = _ ∨ _
    rw [h8 e]
    split
    · rename_i h
      exact Or.inr ⟨h.2, by show m'.ptr e = _; rw [h8 e, if_pos h]⟩
    · exact Or.inl rfl

theorem ptr_append (m : M K V) (p : Ptr V) (e : Nat) (d : Option (AMap K Nat)) :
    M.ptr { m with heap := m.heap ++ [p], dirty := d } e = if e = m.heap.length then p else m.ptr e := by
  simp only [M.ptr, List.getD_eq_getElem?_getD]
  split
  · rename_i h; subst h; simp
  · rename_i h
    by_cases hl : e < m.heap.length
    · rw [List.getElem?_append_left hl]
    · rw [List.getElem?_eq_none (by simp; omega), List.getElem?_eq_none (by omega)]

/-- Adding a new entry for a key that is in neither map, when the dirty map exists. -/
theorem addEntry_inv (m : M K V) (hi : Inv m) (d : AMap K Nat) (hd : m.dirty = some d) (k : K)
    (hr : m.read.get k = none) (v : V) :
    Inv { m with heap := m.heap ++ [.val v], dirty := some (d.set k m.heap.length) } ∧
    ∀ k', M.abs { m with heap := m.heap ++ [.val v], dirty := some (d.set k m.heap.length) } k' =
      if k' = k then some v else m.abs k' := by
  have hdg : ∀ k', M.dirtyGet { m with heap := m.heap ++ [.val v], dirty := some (d.set k m.heap.length) } k' =
      if k = k' then some m.heap.length else m.dirtyGet k' := by
    intro k'; simp only [M.dirtyGet, hd, AMap.get_set]
  have hp := fun e => ptr_append m (.val v) e (some (d.set k m.heap.length))
  have hlt : ∀ k' e, m.Ent k' e → e ≠ m.heap.length := fun k' e h => by
    have := hi.bound k' e h; omega
  constructor
  · constructor
    · simp only [Option.isSome_some]; rw [hi.am, hd]; rfl
    · intro k' e h
      simp only [List.length_append, List.length_cons, List.length_nil]
      rcases h with h | h
      · have := hi.bound k' e (Or.inl h); omega
      · rw [hdg] at h
        split at h
        · simp at h; omega
        · have := hi.bound k' e (Or.inr h); omega
    · intro k1 k2 e h1 h2
      rcases h1 with h1 | h1
      · rcases h2 with h2 | h2
        · exact hi.inj _ _ _ (Or.inl h1) (Or.inl h2)
        · rw [hdg] at h2
          split at h2
          · simp at h2; exact absurd h2.symm (hlt k1 e (Or.inl h1))
          · exact hi.inj _ _ _ (Or.inl h1) (Or.inr h2)
      · rw [hdg] at h1
        split at h1
        · rename_i hk; subst hk
          simp at h1
          rcases h2 with h2 | h2
          · exact absurd h1.symm (hlt k2 e (Or.inl h2))
          · rw [hdg] at h2
            split at h2
            · assumption
            · exact absurd h1.symm (hlt k2 e (Or.inr h2))
        · rcases h2 with h2 | h2
          · exact hi.inj _ _ _ (Or.inr h1) (Or.inl h2)
          · rw [hdg] at h2
            split at h2
            · simp at h2; exact absurd h2.symm (hlt k1 e (Or.inr h1))
            · exact hi.inj _ _ _ (Or.inr h1) (Or.inr h2)
    · intro d' hd' k' e h
      simp at hd'; subst hd'
      have hne : k ≠ k' := by rintro rfl; rw [hr] at h; simp at h
      rw [hp e, if_neg (hlt k' e (Or.inl h)), AMap.get_set_ne _ _ hne]
      exact hi.rd d hd k' e h
    · intro h; simp at h
    · intro k' e h
      rw [hdg] at h
      rw [hp e]
      split at h
      · simp at h; subst h; simp
      · rw [if_neg (hlt k' e (Or.inr h))]; exact hi.dne k' e h
    · exact hi.rnd
    · intro d' hd'; simp at hd'; subst hd'; exact AMap.nodup_set (hi.dnd d hd) _ _
  · intro k'
    simp only [M.abs]
    have hcur : M.cur { m with heap := m.heap ++ [.val v], dirty := some (d.set k m.heap.length) } k' =
        if k' = k then some m.heap.length else m.cur k' := by
      simp only [M.cur]
      cases hr' : m.read.get k' with
      | some e =>
        simp only
        rw [if_neg]
        rintro rfl; rw [hr] at hr'; simp at hr'
      | none =>
        simp only
        rw [hdg]
        by_cases h : k = k'
        · simp [h]
        · simp [h, Ne.symm h]
    rw [hcur]
    by_cases hk : k' = k
    · simp only [hk, hp, if_true, Ptr.load]
    · simp only [if_neg hk]
      cases hc : m.cur k' with
      | none => rfl
      | some e =>
        simp only
        rw [hp e, if_neg (hlt k' e (cur_ent m k' e hc))]

theorem insertNew_inv (m : M K V) (hi : Inv m) (k : K) (v : V) (hr : m.read.get k = none)
    (hdn : m.dirtyGet k = none) :
    Inv (m.insertNew k v) ∧ ∀ k', (m.insertNew k v).abs k' = if k' = k then some v else m.abs k' := by
  unfold M.insertNew
  cases ha : m.amended with
  | true =>
    have : ∃ d, m.dirty = some d := by
      have := hi.am; rw [ha] at this; exact Option.isSome_iff_exists.mp this.symm
    obtain ⟨d, hd⟩ := this
    simp only [if_true, hd, Option.getD_some]
    exact addEntry_inv m hi d hd k hr v
  | false =>
    have hd : m.dirty = none := by
      have := hi.am; rw [ha] at this; simpa using this.symm
    obtain ⟨h1, h2, h3, h4, h5, _⟩ := dirtyLocked_inv m hi hd
    simp only [Bool.false_eq_true, if_false]
    have : ∃ d, m.dirtyLocked.dirty = some d := by
      have := h1.am; simp only at this; exact Option.isSome_iff_exists.mp this.symm
    obtain ⟨d, hdd⟩ := this
    have := addEntry_inv { m.dirtyLocked with amended := true } h1 d hdd k (by simp only [h4]; exact hr) v
    simp only [hdd, Option.getD_some]
    refine ⟨this.1, fun k' => ?_⟩
    rw [this.2 k', h2 k']

/-- Resurrecting an expunged entry of the read map. -/
theorem unexpunge_inv (m : M K V) (hi : Inv m) (k : K) (e : Nat) (hr : m.read.get k = some e)
    (he : m.ptr e = .expunged) :
    Inv (m.unexpunge k e) ∧ (∀ k', (m.unexpunge k e).abs k' = m.abs k') ∧
    (m.unexpunge k e).ptr e = .nil ∧ (m.unexpunge k e).cur k = some e := by
  have hb := hi.bound k e (Or.inl hr)
  have hd : ∃ d, m.dirty = some d := by
    cases hd : m.dirty with
    | none => exact absurd he (hi.nd hd k e hr)
    | some d => exact ⟨d, rfl⟩
  obtain ⟨d, hd⟩ := hd
  have hu : m.unexpunge k e = { m.setPtr e .nil with dirty := some (d.set k e) } := by
    simp [M.unexpunge, he, hd]
  have hdk : d.get k = none := by
    rcases hi.rd d hd k e hr with ⟨_, h⟩ | ⟨h, _⟩
    · exact h
    · exact absurd he h
  have hptr : ∀ e', (m.unexpunge k e).ptr e' = if e = e' then .nil else m.ptr e' := by
    intro e'; rw [hu]; exact setPtr_ptr m e e' .nil hb
  have hdg : ∀ k', (m.unexpunge k e).dirtyGet k' = if k = k' then some e else m.dirtyGet k' := by
    intro k'; rw [hu]; simp only [M.dirtyGet, hd, AMap.get_set]
  have hrd : (m.unexpunge k e).read = m.read := by rw [hu]; rfl
  have hcur : ∀ k', (m.unexpunge k e).cur k' = m.cur k' := by
    intro k'
    simp only [M.cur, hrd, hdg]
    cases hr' : m.read.get k' with
    | some e' => rfl
    | none =>
      simp only
      rw [if_neg]
      rintro rfl; rw [hr] at hr'; simp at hr'
  refine ⟨?_, ?_, by rw [hptr]; simp, ?_⟩
  · constructor
    · rw [hu]; simp only [Option.isSome_some, setPtr_amended]; rw [hi.am, hd]; rfl
    · intro k' e' h
      have : (m.unexpunge k e).heap.length = m.heap.length := by rw [hu]; simp [M.setPtr]
      rw [this]
      rcases h with h | h
      · rw [hrd] at h; exact hi.bound k' e' (Or.inl h)
      · rw [hdg] at h
        split at h
        · simp at h; subst h; exact hb
        · exact hi.bound k' e' (Or.inr h)
    · intro k1 k2 e' h1 h2
      have conv : ∀ k', (m.unexpunge k e).Ent k' e' → m.Ent k' e' := by
        intro k' h
        rcases h with h | h
        · rw [hrd] at h; exact Or.inl h
        · rw [hdg] at h
          split at h
          · rename_i hk; subst hk; simp at h; subst h; exact Or.inl hr
          · exact Or.inr h
      exact hi.inj k1 k2 e' (conv k1 h1) (conv k2 h2)
    · intro d' hd' k' e' h
      rw [hu] at hd'; simp at hd'; subst hd'
      rw [hrd] at h
      rw [hptr, AMap.get_set]
      by_cases hk : k = k'
      · subst hk; rw [hr] at h; simp at h; subst h
        right; simp
      · have hee : e ≠ e' := by
          rintro rfl; exact hk (hi.inj k k' e (Or.inl hr) (Or.inl h))
        simp only [hk, hee, if_false]
        exact hi.rd d hd k' e' h
    · intro h; rw [hu] at h; simp at h
    · intro k' e' h
      rw [hdg] at h
      rw [hptr]
      split at h
      · simp at h; subst h; simp
      · split
        · simp
        · exact hi.dne k' e' h
    · rw [hrd]; exact hi.rnd
    · intro d' hd'; rw [hu] at hd'; simp at hd'; subst hd'; exact AMap.nodup_set (hi.dnd d hd) _ _
  · intro k'
    simp only [M.abs, hcur]
    cases hc : m.cur k' with
    | none => rfl
    | some e' =>
      simp only [hptr]
      split
      · rename_i h; subst h; simp [he, Ptr.load]
      · rfl
  · rw [hcur]; exact ent_cur m hi k e (Or.inl hr)

end Verif.SyncMap
