import Verif.SyncMap.Seq
import Verif.SyncMap.Hindsight
set_option linter.unusedSimpArgs false
set_option linter.unusedVariables false
set_option linter.unusedSectionVars false
/-! # What each memory action preserves -/
namespace Verif.SyncMap
open Verif
variable {K V : Type} [DecidableEq K]

/-- `e` belongs to no map any more. -/
def M.Gone (m : M K V) (e : Nat) : Prop := ∀ k, ¬ m.Ent k e

/-- While `dirtyLocked` runs: `td` still to copy, `d` copied. -/
structure BInv (m : M K V) (td d : AMap K Nat) : Prop where
  am : m.amended = false
  dn : m.dirty = none
  bound : ∀ k e, m.read.get k = some e → e < m.heap.length
  inj : ∀ k k' e, m.read.get k = some e → m.read.get k' = some e → k = k'
  rnd : m.read.keys.Nodup
  tnd : td.keys.Nodup
  dnd : d.keys.Nodup
  htd : ∀ k e, td.get k = some e → m.read.get k = some e ∧ m.ptr e ≠ .expunged ∧ d.get k = none
  hd : ∀ k e, d.get k = some e → m.read.get k = some e ∧ m.ptr e ≠ .expunged
  rest : ∀ k e, m.read.get k = some e → td.get k = none → d.get k = none → m.ptr e = .expunged

def GInv (m : M K V) (b : Option (AMap K Nat × AMap K Nat)) : Prop :=
  match b with
  | none => Inv m
  | some (td, d) => BInv m td d

theorem dirtyGet_none {m : M K V} (h : m.dirty = none) (k : K) : m.dirtyGet k = none := by
  simp [M.dirtyGet, h]

theorem GInv.am {m : M K V} {b} (h : GInv m b) : m.amended = m.dirty.isSome := by
  rcases b with _ | ⟨td, d⟩
  · exact Inv.am h
  · have h : BInv m td d := h
    rw [h.am, h.dn]; rfl

theorem BInv.ent {m : M K V} {td d} (h : BInv m td d) {k e} (he : m.Ent k e) : m.read.get k = some e := by
  rcases he with he | he
  · exact he
  · rw [dirtyGet_none h.dn] at he; cases he

theorem GInv.bound {m : M K V} {b} (h : GInv m b) (k e) (he : m.Ent k e) : e < m.heap.length := by
  rcases b with _ | ⟨td, d⟩
  · exact Inv.bound h k e he
  · have h : BInv m td d := h
    exact h.bound k e (h.ent he)

theorem GInv.inj {m : M K V} {b} (h : GInv m b) (k k' e) (he : m.Ent k e) (he' : m.Ent k' e) : k = k' := by
  rcases b with _ | ⟨td, d⟩
  · exact Inv.inj h k k' e he he'
  · have h : BInv m td d := h
    exact h.inj k k' e (h.ent he) (h.ent he')

theorem GInv.cur {m : M K V} {b} (h : GInv m b) (k e) (he : m.Ent k e) : m.cur k = some e := by
  rcases b with _ | ⟨td, d⟩
  · exact ent_cur m h k e he
  · have h : BInv m td d := h
    simp [M.cur, h.ent he]

theorem GInv.rnd {m : M K V} {b} (h : GInv m b) : m.read.keys.Nodup := by
  rcases b with _ | ⟨td, d⟩
  · exact Inv.rnd h
  · exact BInv.rnd h

theorem abs_cur {m : M K V} {k e} (h : m.cur k = some e) : m.abs k = (m.ptr e).load := by
  simp [M.abs, h]

theorem abs_none {m : M K V} {k} (h : m.cur k = none) : m.abs k = none := by
  simp [M.abs, h]

theorem abs_clean {m : M K V} {b} (h : GInv m b) {k} (hr : m.read.get k = none) (ha : m.amended = false) :
    m.abs k = none := by
  apply abs_none
  have : m.dirty = none := by
    have := h.am; rw [ha] at this; exact Option.isNone_iff_eq_none.mp (by simpa using this.symm)
  simp [M.cur, hr, dirtyGet_none this]

/-- How a step of one thread looks to the others; `x` is an entry only that thread may still touch. -/
structure Trans (m m' : M K V) (x : Option Nat) : Prop where
  len : m.heap.length ≤ m'.heap.length
  ent : ∀ k e, e < m.heap.length → m'.Ent k e → m.Ent k e
  rd : ∀ k e, m.read.get k = some e → m'.read.get k = some e ∨
    (m'.ptr e = .expunged ∧ m'.Gone e ∧ m'.abs k = none)
  cur : ∀ k e, m.cur k = some e → m'.cur k = some e ∨
    (m'.Gone e ∧ m'.abs k = none ∧ (m'.ptr e).load = (m.ptr e).load)
  dead : ∀ e, e < m.heap.length → m.Gone e → m'.ptr e = m.ptr e ∨
    (x = some e ∧ m.ptr e ≠ .expunged ∧ m'.ptr e = .nil)

theorem Trans.refl (m : M K V) : Trans m m none :=
  ⟨Nat.le_refl _, fun _ _ _ h => h, fun _ _ h => Or.inl h, fun _ _ h => Or.inl h, fun _ _ _ => Or.inl rfl⟩

theorem Trans.gone {m m' : M K V} {x} (h : Trans m m' x) {e} (he : e < m.heap.length) (hg : m.Gone e) :
    m'.Gone e := fun k hk => hg k (h.ent k e he hk)

/-- What stays the same for the holder of the lock. -/
structure Soft (m m' : M K V) : Prop where
  read : m'.read = m.read
  dirty : m'.dirty = m.dirty
  amended : m'.amended = m.amended
  exp : ∀ e, m'.ptr e = .expunged ↔ m.ptr e = .expunged

theorem Soft.refl (m : M K V) : Soft m m := ⟨rfl, rfl, rfl, fun _ => Iff.rfl⟩

/-- A thread holds `e`, found in the read map under `k`. -/
def HR (m : M K V) (k : K) (e : Nat) (S : (K → Option V) → Prop) : Prop :=
  e < m.heap.length ∧ (m.read.get k = some e ∨ (m.ptr e = .expunged ∧ m.Gone e ∧ ∃ h, S h ∧ h k = none))

/-- A thread holds `e`, found in either map under `k`, and will only read it. -/
def HL (m : M K V) (k : K) (e : Nat) (S : (K → Option V) → Prop) : Prop :=
  e < m.heap.length ∧ (∃ h, S h ∧ h k = (m.ptr e).load) ∧
  (m.cur k = some e ∨ (m.Gone e ∧ ∃ h, S h ∧ h k = none))

/-- A thread has taken `e` out of the dirty map. -/
def Own (m : M K V) (e : Nat) (x : Option V) : Prop :=
  e < m.heap.length ∧ m.Gone e ∧ m.ptr e ≠ .expunged ∧ (m.ptr e).load = x

/-- `S` and the current map. -/
def add (S : (K → Option V) → Prop) (g : K → Option V) : (K → Option V) → Prop := fun h => S h ∨ h = g

theorem HR.trans {m m' : M K V} {x k e S} (h : HR m k e S) (ht : Trans m m' x) : HR m' k e (add S m'.abs) := by
  obtain ⟨h1, h2⟩ := h
  refine ⟨Nat.lt_of_lt_of_le h1 ht.len, ?_⟩
  rcases h2 with h2 | ⟨h2, h3, g, h4, h5⟩
  · rcases ht.rd k e h2 with h | ⟨a, b, c⟩
    · exact Or.inl h
    · exact Or.inr ⟨a, b, m'.abs, Or.inr rfl, c⟩
  · right
    refine ⟨?_, ht.gone h1 h3, g, Or.inl h4, h5⟩
    rcases ht.dead e h1 h3 with h | ⟨_, h, _⟩
    · rw [h]; exact h2
    · exact absurd h2 h

theorem HL.trans {m m' : M K V} {x k e S} (h : HL m k e S) (ht : Trans m m' x) : HL m' k e (add S m'.abs) := by
  obtain ⟨h1, ⟨g, h2, h3⟩, h4⟩ := h
  refine ⟨Nat.lt_of_lt_of_le h1 ht.len, ?_⟩
  rcases h4 with h4 | ⟨h4, g', h5, h6⟩
  · rcases ht.cur k e h4 with h | ⟨a, b, c⟩
    · exact ⟨⟨m'.abs, Or.inr rfl, abs_cur h⟩, Or.inl h⟩
    · refine ⟨⟨g, Or.inl h2, ?_⟩, Or.inr ⟨a, m'.abs, Or.inr rfl, b⟩⟩
      rw [h3, c]
  · refine ⟨?_, Or.inr ⟨ht.gone h1 h4, g', Or.inl h5, h6⟩⟩
    rcases ht.dead e h1 h4 with h | ⟨_, _, h⟩
    · exact ⟨g, Or.inl h2, by rw [h, h3]⟩
    · exact ⟨g', Or.inl h5, by rw [h, h6]; rfl⟩

theorem Own.trans {m m' : M K V} {x e v} (h : Own m e v) (ht : Trans m m' x) (hx : x ≠ some e) : Own m' e v := by
  obtain ⟨h1, h2, h3, h4⟩ := h
  have hp : m'.ptr e = m.ptr e := by
    rcases ht.dead e h1 h2 with h | ⟨h, _⟩
    · exact h
    · exact absurd h hx
  exact ⟨Nat.lt_of_lt_of_le h1 ht.len, ht.gone h1 h2, by rw [hp]; exact h3, by rw [hp]; exact h4⟩

theorem HR.mono {m : M K V} {k e} {S S' : (K → Option V) → Prop} (h : HR m k e S) (hS : ∀ g, S g → S' g) :
    HR m k e S' := by
  obtain ⟨h1, h2⟩ := h
  refine ⟨h1, h2.imp id ?_⟩
  rintro ⟨a, b, g, c, d⟩
  exact ⟨a, b, g, hS g c, d⟩

theorem HL.mono {m : M K V} {k e} {S S' : (K → Option V) → Prop} (h : HL m k e S) (hS : ∀ g, S g → S' g) :
    HL m k e S' := by
  obtain ⟨h1, ⟨g, a, b⟩, h2⟩ := h
  refine ⟨h1, ⟨g, hS g a, b⟩, h2.imp id ?_⟩
  rintro ⟨a, g, c, d⟩
  exact ⟨a, g, hS g c, d⟩

/-! ### Writing to an entry that belongs to `k` -/

theorem setPtr_ent (m : M K V) (e0 p k e) : (m.setPtr e0 p).Ent k e ↔ m.Ent k e := Iff.rfl

theorem setPtr_gone (m : M K V) (e0 p e) : (m.setPtr e0 p).Gone e ↔ m.Gone e := Iff.rfl

theorem setPtr_trans {m : M K V} {k e p} (he : m.Ent k e) (hb : e < m.heap.length) : Trans m (m.setPtr e p) none := by
  refine ⟨by rw [setPtr_len]; exact Nat.le_refl _, fun _ _ _ h => h, fun _ _ h => Or.inl h,
    fun _ _ h => Or.inl h, fun e' _ hg => ?_⟩
  left
  rw [setPtr_ptr m e e' p hb, if_neg]
  rintro rfl; exact hg k he

theorem setPtr_exp {m : M K V} {e p} (hb : e < m.heap.length) (hp : p ≠ .expunged) (hpe : m.ptr e ≠ .expunged) (e') :
    (m.setPtr e p).ptr e' = .expunged ↔ m.ptr e' = .expunged := by
  rw [setPtr_ptr m e e' p hb]
  split
  · rename_i h; subst h; simp [hp, hpe]
  · rfl

theorem setPtr_soft {m : M K V} {e p} (hb : e < m.heap.length) (hp : p ≠ .expunged) (hpe : m.ptr e ≠ .expunged) :
    Soft m (m.setPtr e p) := ⟨rfl, rfl, rfl, setPtr_exp hb hp hpe⟩

/-- A soft change keeps the invariant. -/
theorem Soft.ginv {m m' : M K V} {b} (hs : Soft m m') (hl : m'.heap.length = m.heap.length) (h : GInv m b) :
    GInv m' b := by
  have hdg : ∀ k, m'.dirtyGet k = m.dirtyGet k := by intro k; simp [M.dirtyGet, hs.dirty]
  have hent : ∀ k e, m'.Ent k e ↔ m.Ent k e := by intro k e; simp [M.Ent, hs.read, hdg]
  rcases b with _ | ⟨td, d⟩
  · have h : Inv m := h
    show Inv m'
    refine ⟨by rw [hs.amended, hs.dirty]; exact h.am, fun k e he => ?_, fun k k' e he he' => ?_, ?_, ?_, ?_, ?_, ?_⟩
    · rw [hl]; exact h.bound k e ((hent k e).mp he)
    · exact h.inj k k' e ((hent k e).mp he) ((hent k' e).mp he')
    · intro d hd k e hr
      rw [hs.dirty] at hd; rw [hs.read] at hr
      rcases h.rd d hd k e hr with ⟨a, b⟩ | ⟨a, b⟩
      · exact Or.inl ⟨(hs.exp e).mpr a, b⟩
      · exact Or.inr ⟨fun hh => a ((hs.exp e).mp hh), b⟩
    · intro hd k e hr hh
      rw [hs.dirty] at hd; rw [hs.read] at hr
      exact h.nd hd k e hr ((hs.exp e).mp hh)
    · intro k e hr hh
      rw [hdg] at hr
      exact h.dne k e hr ((hs.exp e).mp hh)
    · rw [hs.read]; exact h.rnd
    · rw [hs.dirty]; exact h.dnd
  · have h : BInv m td d := h
    show BInv m' td d
    refine ⟨by rw [hs.amended]; exact h.am, by rw [hs.dirty]; exact h.dn, ?_, ?_, ?_, h.tnd, h.dnd, ?_, ?_, ?_⟩
    · rw [hs.read, hl]; exact h.bound
    · rw [hs.read]; exact h.inj
    · rw [hs.read]; exact h.rnd
    · intro k e he
      rw [hs.read]
      obtain ⟨a, b, c⟩ := h.htd k e he
      exact ⟨a, fun hh => b ((hs.exp e).mp hh), c⟩
    · intro k e he
      rw [hs.read]
      obtain ⟨a, b⟩ := h.hd k e he
      exact ⟨a, fun hh => b ((hs.exp e).mp hh)⟩
    · intro k e hr
      rw [hs.read] at hr
      intro a b
      exact (hs.exp e).mpr (h.rest k e hr a b)

theorem setPtr_abs' {m : M K V} {b} (hi : GInv m b) {k e} (he : m.Ent k e) (p : Ptr V) :
    (m.setPtr e p).abs = bind m.abs k p.load := by
  have hb := hi.bound k e he
  have hc := hi.cur k e he
  funext k'
  simp only [bind]
  by_cases h : k' = k
  · subst h; rw [if_pos rfl, abs_cur (e := e) (by rw [setPtr_cur]; exact hc), setPtr_ptr m e e p hb, if_pos rfl]
  · rw [if_neg h]
    simp only [M.abs, setPtr_cur]
    cases hc' : m.cur k' with
    | none => rfl
    | some e' =>
      simp only
      rw [setPtr_ptr m e e' p hb, if_neg]
      rintro rfl
      exact h (hi.inj k' k e (cur_ent m k' e hc') he)

/-- The current map does not change when an entry outside the maps is written, or when the content of an
entry stays the same to a reader. -/
theorem setPtr_abs_same {m : M K V} {e p} (hb : e < m.heap.length)
    (h : m.Gone e ∨ p.load = (m.ptr e).load) : (m.setPtr e p).abs = m.abs := by
  funext k
  simp only [M.abs, setPtr_cur]
  cases hc : m.cur k with
  | none => rfl
  | some e' =>
    simp only
    rw [setPtr_ptr m e e' p hb]
    split
    · rename_i he; subst he
      rcases h with h | h
      · exact absurd (cur_ent m k e hc) (h k)
      · exact h
    · rfl

theorem own_trans {m : M K V} {e x} (h : Own m e x) : Trans m (m.setPtr e .nil) (some e) := by
  obtain ⟨h1, h2, h3, h4⟩ := h
  refine ⟨by rw [setPtr_len]; exact Nat.le_refl _, fun _ _ _ h => h, fun _ _ h => Or.inl h,
    fun _ _ h => Or.inl h, fun e' _ hg => ?_⟩
  rw [setPtr_ptr m e e' .nil h1]
  by_cases he : e = e'
  · subst he; exact Or.inr ⟨rfl, h3, by rw [if_pos rfl]⟩
  · left; rw [if_neg he]

/-! ### `missLocked`, promotion -/

theorem promoted_trans (m : M K V) (hi : Inv m) (d : AMap K Nat) (hd : m.dirty = some d) :
    Trans m m.promoted none := by
  have hg : ∀ k, m.promoted.read.get k = m.dirtyGet k := by
    intro k; simp [M.promoted, M.dirtyGet, hd]
  have hdg : ∀ k, m.promoted.dirtyGet k = none := by intro k; simp [M.promoted, M.dirtyGet]
  have hp : ∀ e, m.promoted.ptr e = m.ptr e := fun _ => rfl
  have hent : ∀ k e, m.promoted.Ent k e ↔ m.dirtyGet k = some e := by
    intro k e
    simp [M.Ent, hg, hdg]
  have habs := (promoted_inv m hi d hd).2
  have key : ∀ k e, m.read.get k = some e → m.promoted.read.get k = some e ∨
      (m.ptr e = .expunged ∧ m.promoted.Gone e ∧ m.promoted.abs k = none) := by
    intro k e hr
    rcases hi.rd d hd k e hr with ⟨a, b⟩ | ⟨a, b⟩
    · right
      refine ⟨a, ?_, ?_⟩
      · intro k' hk'
        rw [hent] at hk'
        have := hi.inj k k' e (Or.inl hr) (Or.inr hk')
        subst this
        simp [M.dirtyGet, hd, b] at hk'
      · rw [habs]
        simp [M.abs, M.cur, hr, a, Ptr.load]
    · left; rw [hg]; simp [M.dirtyGet, hd, b]
  refine ⟨Nat.le_refl _, ?_, key, ?_, fun _ _ _ => Or.inl rfl⟩
  · intro k e _ h; exact Or.inr ((hent k e).mp h)
  · intro k e hc
    cases hr : m.read.get k with
    | some e' =>
      simp only [M.cur, hr, Option.some.injEq] at hc
      subst hc
      rcases key k e' hr with h | ⟨_, b, c⟩
      · left; simp [M.cur, h]
      · exact Or.inr ⟨b, c, rfl⟩
    | none =>
      simp only [M.cur, hr] at hc
      left
      simp only [M.cur, hg, hc]

theorem missLocked_trans (m : M K V) (hi : Inv m) (hd : m.dirty.isSome) :
    Inv m.missLocked ∧ m.missLocked.abs = m.abs ∧ Trans m m.missLocked none := by
  obtain ⟨d, hd⟩ := Option.isSome_iff_exists.mp hd
  obtain ⟨h1, h2⟩ := missLocked_inv m hi d hd
  refine ⟨h1, funext h2, ?_⟩
  unfold M.missLocked
  split
  · exact ⟨Nat.le_refl _, fun _ _ _ h => h, fun _ _ h => Or.inl h, fun _ _ h => Or.inl h, fun _ _ _ => Or.inl rfl⟩
  · exact promoted_trans m hi d hd

theorem promote_trans (m : M K V) (hi : Inv m) :
    Inv m.promote ∧ m.promote.abs = m.abs ∧ Trans m m.promote none ∧ m.promote.amended = false := by
  unfold M.promote
  split
  · rename_i ha
    have hd : ∃ d, m.dirty = some d := by
      have := hi.am; rw [ha] at this; exact Option.isSome_iff_exists.mp this.symm
    obtain ⟨d, hd⟩ := hd
    obtain ⟨h1, h2⟩ := promoted_inv m hi d hd
    exact ⟨h1, funext h2, promoted_trans m hi d hd, rfl⟩
  · rename_i ha
    exact ⟨hi, rfl, Trans.refl m, by simpa using ha⟩

/-! ### Resurrecting an expunged entry -/

theorem unexpunge_trans (m : M K V) (hi : Inv m) {k e} (hr : m.read.get k = some e) :
    Inv (m.unexpunge k e) ∧ (m.unexpunge k e).abs = m.abs ∧ Trans m (m.unexpunge k e) none ∧
    (m.unexpunge k e).read = m.read ∧ (m.unexpunge k e).ptr e ≠ .expunged := by
  have hb := hi.bound k e (Or.inl hr)
  by_cases he : m.ptr e = .expunged
  · obtain ⟨h1, h2, h3, h4⟩ := unexpunge_inv m hi k e hr he
    have hd : ∃ d, m.dirty = some d := by
      cases hd : m.dirty with
      | none => exact absurd he (hi.nd hd k e hr)
      | some d => exact ⟨d, rfl⟩
    obtain ⟨d, hd⟩ := hd
    have hu : m.unexpunge k e = { m.setPtr e .nil with dirty := some (d.set k e) } := by
      simp [M.unexpunge, he, hd]
    have hptr : ∀ e', (m.unexpunge k e).ptr e' = if e = e' then .nil else m.ptr e' := by
      intro e'; rw [hu]; exact setPtr_ptr m e e' .nil hb
    have hrd : (m.unexpunge k e).read = m.read := by rw [hu]; rfl
    have hlen : (m.unexpunge k e).heap.length = m.heap.length := by rw [hu]; simp [M.setPtr]
    have hdg : ∀ k', (m.unexpunge k e).dirtyGet k' = if k = k' then some e else m.dirtyGet k' := by
      intro k'; rw [hu]; simp only [M.dirtyGet, hd, AMap.get_set]
    refine ⟨h1, funext h2, ?_, hrd, by rw [h3]; simp⟩
    refine ⟨by rw [hlen]; exact Nat.le_refl _, ?_, ?_, ?_, ?_⟩
    · intro k' e' _ h
      rcases h with h | h
      · rw [hrd] at h; exact Or.inl h
      · rw [hdg] at h
        split at h
        · rename_i hk; subst hk; simp at h; subst h; exact Or.inl hr
        · exact Or.inr h
    · intro k' e' h; rw [hrd]; exact Or.inl h
    · intro k' e' h
      left
      by_cases hk : k = k'
      · subst hk; rw [h4]
        simp only [M.cur, hr] at h; exact h
      · simp only [M.cur, hrd, hdg, if_neg hk] at h ⊢
        exact h
    · intro e' _ hg
      left
      rw [hptr, if_neg]
      rintro rfl; exact hg k (Or.inl hr)
  · have hu : m.unexpunge k e = m := by
      unfold M.unexpunge
      split
      · rename_i h; exact absurd h he
      · rfl
    rw [hu]
    exact ⟨hi, rfl, Trans.refl m, rfl, he⟩

/-! ### New entries -/

/-- A new entry for a key in neither map, when the dirty map exists: seen by the others. -/
theorem addEntry_trans (m : M K V) (hi : Inv m) (d : AMap K Nat) (hd : m.dirty = some d) (k : K)
    (hr : m.read.get k = none) (hdn : m.dirtyGet k = none) (v : V) :
    Trans m { m with heap := m.heap ++ [.val v], dirty := some (d.set k m.heap.length) } none := by
  have hdg : ∀ k', M.dirtyGet { m with heap := m.heap ++ [.val v], dirty := some (d.set k m.heap.length) } k' =
      if k = k' then some m.heap.length else m.dirtyGet k' := by
    intro k'; simp only [M.dirtyGet, hd, AMap.get_set]
  have hp := fun e => ptr_append m (.val v) e (some (d.set k m.heap.length))
  refine ⟨by simp, ?_, fun k' e h => Or.inl h, ?_, ?_⟩
  · intro k' e hl h
    rcases h with h | h
    · exact Or.inl h
    · rw [hdg] at h
      split at h
      · simp at h; omega
      · exact Or.inr h
  · intro k' e h
    left
    simp only [M.cur] at h ⊢
    cases hr' : m.read.get k' with
    | some e' => rw [hr'] at h; exact h
    | none =>
      rw [hr'] at h
      simp only at h ⊢
      rw [hdg, if_neg]
      · exact h
      · rintro rfl; rw [hdn] at h; cases h
  · intro e hl _
    left
    rw [hp, if_neg (by omega)]

theorem insertNew_trans (m : M K V) (hi : Inv m) {k : K} (v : V) (hr : m.read.get k = none)
    (hdn : m.dirtyGet k = none) (ha : m.amended = true) :
    Inv (m.insertNew k v) ∧ (m.insertNew k v).abs = bind m.abs k (some v) ∧ Trans m (m.insertNew k v) none := by
  obtain ⟨h1, h2⟩ := insertNew_inv m hi k v hr hdn
  refine ⟨h1, funext h2, ?_⟩
  have : ∃ d, m.dirty = some d := by
    have := hi.am; rw [ha] at this; exact Option.isSome_iff_exists.mp this.symm
  obtain ⟨d, hd⟩ := this
  have hu : m.insertNew k v = { m with heap := m.heap ++ [.val v], dirty := some (d.set k m.heap.length) } := by
    simp [M.insertNew, ha, hd]
  rw [hu]
  exact addEntry_trans m hi d hd k hr hdn v

/-! ### `dirtyLocked` -/

theorem begin_inv (m : M K V) (hi : Inv m) (ha : m.amended = false) :
    m.dirty = none ∧ BInv m m.read [] := by
  have hd : m.dirty = none := by
    have := hi.am; rw [ha] at this; exact Option.isNone_iff_eq_none.mp (by simpa using this.symm)
  refine ⟨hd, ha, hd, fun k e h => hi.bound k e (Or.inl h), fun k k' e h h' => hi.inj k k' e (Or.inl h) (Or.inl h'),
    hi.rnd, hi.rnd, by simp [AMap.keys], ?_, ?_, ?_⟩
  · intro k e h; exact ⟨h, hi.nd hd k e h, rfl⟩
  · intro k e h; cases h
  · intro k e h h'; rw [h] at h'; cases h'

theorem get_cons_self (k : K) (e : Nat) (td : AMap K Nat) : AMap.get ((k, e) :: td) k = some e := by
  simp [AMap.get]

theorem nodup_tail {k : K} {e : Nat} {td : AMap K Nat} (h : (AMap.keys ((k, e) :: td)).Nodup) :
    (AMap.keys td).Nodup ∧ AMap.get td k = none := by
  simp only [AMap.keys, List.map_cons, List.nodup_cons] at h
  exact ⟨h.2, (AMap.get_eq_none_iff td k).mpr h.1⟩

theorem get_cons_ne {k k' : K} (e : Nat) (td : AMap K Nat) (h : k ≠ k') :
    AMap.get ((k, e) :: td) k' = AMap.get td k' := by simp [AMap.get, h]

theorem bld_val {m : M K V} {k e td d v} (h : BInv m ((k, e) :: td) d) (hp : m.ptr e = .val v) :
    BInv m td (AMap.set d k e) := by
  obtain ⟨h1, h2⟩ := nodup_tail h.tnd
  obtain ⟨hr, hx, hdk⟩ := h.htd k e (get_cons_self k e td)
  refine ⟨h.am, h.dn, h.bound, h.inj, h.rnd, h1, AMap.nodup_set h.dnd _ _, ?_, ?_, ?_⟩
  · intro k' e' h'
    have hne : k ≠ k' := by rintro rfl; rw [h2] at h'; cases h'
    rw [AMap.get_set_ne _ _ hne]
    exact h.htd k' e' (by rw [get_cons_ne _ _ hne]; exact h')
  · intro k' e' h'
    rw [AMap.get_set] at h'
    split at h'
    · rename_i hk; subst hk; cases h'; exact ⟨hr, hx⟩
    · exact h.hd k' e' h'
  · intro k' e' hr' h3 h4
    rw [AMap.get_set] at h4
    split at h4
    · cases h4
    · rename_i hk
      exact h.rest k' e' hr' (by rw [get_cons_ne _ _ hk]; exact h3) h4

theorem bld_expunge {m : M K V} {k e td d} (h : BInv m ((k, e) :: td) d) (hp : m.ptr e = .nil) :
    BInv (m.setPtr e .expunged) td d ∧ (m.setPtr e .expunged).abs = m.abs ∧ Trans m (m.setPtr e .expunged) none := by
  obtain ⟨h1, h2⟩ := nodup_tail h.tnd
  obtain ⟨hr, hx, hdk⟩ := h.htd k e (get_cons_self k e td)
  have hb := h.bound k e hr
  have hne : ∀ k' e', k ≠ k' → m.read.get k' = some e' → (m.setPtr e .expunged).ptr e' = m.ptr e' := by
    intro k' e' hk h'
    rw [setPtr_ptr m e e' _ hb, if_neg]
    rintro rfl; exact hk (h.inj k k' e hr h')
  refine ⟨⟨h.am, h.dn, fun k e h' => by rw [setPtr_len]; exact h.bound k e h', h.inj, h.rnd, h1, h.dnd, ?_, ?_, ?_⟩,
    setPtr_abs_same hb (Or.inr (by rw [hp]; rfl)), setPtr_trans (Or.inl hr) hb⟩
  · intro k' e' h'
    have hk : k ≠ k' := by rintro rfl; rw [h2] at h'; cases h'
    obtain ⟨a, b, c⟩ := h.htd k' e' (by rw [get_cons_ne _ _ hk]; exact h')
    exact ⟨a, by rw [hne k' e' hk a]; exact b, c⟩
  · intro k' e' h'
    have hk : k ≠ k' := by rintro rfl; rw [hdk] at h'; cases h'
    obtain ⟨a, b⟩ := h.hd k' e' h'
    exact ⟨a, by rw [hne k' e' hk a]; exact b⟩
  · intro k' e' hr' h3 h4
    by_cases hk : k = k'
    · subst hk
      have : m.read.get k = some e' := hr'
      rw [hr] at this; cases this
      rw [setPtr_ptr m e e _ hb, if_pos rfl]
    · rw [hne k' e' hk hr']
      exact h.rest k' e' hr' (by rw [get_cons_ne _ _ hk]; exact h3) h4

/-- The end of `dirtyLocked`, before the new entry is added. -/
theorem bld_done {m : M K V} {d} (h : BInv m [] d) :
    Inv { m with dirty := some d, amended := true } ∧
    M.abs { m with dirty := some d, amended := true } = m.abs ∧
    Trans m { m with dirty := some d, amended := true } none := by
  have hdg : ∀ k, M.dirtyGet { m with dirty := some d, amended := true } k = d.get k := fun k => rfl
  have hent : ∀ k e, M.Ent { m with dirty := some d, amended := true } k e → m.read.get k = some e := by
    intro k e he
    rcases he with he | he
    · exact he
    · exact (h.hd k e he).1
  have hcur : ∀ k, M.cur { m with dirty := some d, amended := true } k = m.cur k := by
    intro k
    simp only [M.cur, hdg, dirtyGet_none h.dn]
    cases hr : m.read.get k with
    | some e => rfl
    | none =>
      simp only
      cases hdk : d.get k with
      | none => rfl
      | some e => have := (h.hd k e hdk).1; rw [hr] at this; cases this
  refine ⟨⟨rfl, fun k e he => h.bound k e (hent k e he), fun k k' e he he' => h.inj k k' e (hent k e he) (hent k' e he'),
    ?_, ?_, ?_, h.rnd, ?_⟩, ?_, ?_⟩
  · intro d' hd' k e hr
    cases hd'
    cases hdk : d.get k with
    | none => exact Or.inl ⟨h.rest k e hr rfl hdk, rfl⟩
    | some e' =>
      obtain ⟨a, b⟩ := h.hd k e' hdk
      have hr : m.read.get k = some e := hr
      rw [hr] at a; cases a
      exact Or.inr ⟨b, rfl⟩
  · intro hd; cases hd
  · intro k e hd; exact (h.hd k e hd).2
  · intro d' hd'; cases hd'; exact h.dnd
  · funext k
    simp only [M.abs, hcur]
    cases m.cur k <;> rfl
  · refine ⟨Nat.le_refl _, fun k e _ he => Or.inl (hent k e he), fun k e hr => Or.inl hr, fun k e hc => Or.inl ?_,
      fun _ _ _ => Or.inl rfl⟩
    rw [hcur]; exact hc

theorem commit_trans {m : M K V} {d k} (v : V) (h : BInv m [] d) (hr : m.read.get k = none) :
    Inv (m.commit d k v) ∧ (m.commit d k v).abs = bind m.abs k (some v) ∧ Trans m (m.commit d k v) none := by
  obtain ⟨h1, h2, h3⟩ := bld_done h
  have hdn : M.dirtyGet { m with dirty := some d, amended := true } k = none := by
    show d.get k = none
    cases hdk : d.get k with
    | none => rfl
    | some e => have := (h.hd k e hdk).1; rw [hr] at this; cases this
  have h4 := addEntry_inv { m with dirty := some d, amended := true } h1 d rfl k hr v
  have h5 := addEntry_trans { m with dirty := some d, amended := true } h1 d rfl k hr hdn v
  refine ⟨h4.1, ?_, ?_⟩
  · funext k'
    have := h4.2 k'
    rw [h2] at this
    exact this
  · refine ⟨h5.len, fun k' e hl he => h3.ent k' e hl (h5.ent k' e hl he), fun k' e hr' => Or.inl hr', ?_, ?_⟩
    · intro k' e hc
      left
      rcases h3.cur k' e hc with hc' | ⟨hg, _⟩
      · rcases h5.cur k' e hc' with h | ⟨hg, _⟩
        · exact h
        · exfalso
          have : m.read.get k' = some e := h.ent (cur_ent m k' e hc)
          exact hg k' (Or.inl this)
      · exfalso
        have : m.read.get k' = some e := h.ent (cur_ent m k' e hc)
        exact hg k' (Or.inl this)
    · intro e hl hg
      left
      rcases h5.dead e hl (h3.gone hl hg) with hh | ⟨hh, _⟩
      · exact hh
      · cases hh

/-! ### Taking an entry out of the dirty map -/

theorem drop_trans {m : M K V} {k} (hi : Inv m) (ha : m.amended = true) (hr : m.read.get k = none) :
    Inv (m.dropDirty k) ∧ (m.dropDirty k).abs = bind m.abs k none ∧ Trans m (m.dropDirty k) none ∧
    (∀ e, m.dirtyGet k = some e → Own (m.dropDirty k) e (m.abs k)) := by
  have hd : ∃ d, m.dirty = some d := by
    have := hi.am; rw [ha] at this; exact Option.isSome_iff_exists.mp this.symm
  obtain ⟨d, hd⟩ := hd
  obtain ⟨m1, hm1⟩ : ∃ m1, m1 = { m with dirty := m.dirty.map (fun d => AMap.del d k) } := ⟨_, rfl⟩
  have hd1 : m1.dirty = some (d.del k) := by rw [hm1, hd]; rfl
  have hr1 : m1.read = m.read := by rw [hm1]
  have hp1 : ∀ e, m1.ptr e = m.ptr e := by intro e; rw [hm1]; rfl
  have hl1 : m1.heap.length = m.heap.length := by rw [hm1]
  have ha1 : m1.amended = true := by rw [hm1]; exact ha
  have hdg : ∀ k', m1.dirtyGet k' = if k = k' then none else m.dirtyGet k' := by
    intro k'; simp only [M.dirtyGet, hd1, hd, AMap.get_del]
  have hent : ∀ k' e, m1.Ent k' e → m.Ent k' e := by
    intro k' e he
    rcases he with he | he
    · rw [hr1] at he; exact Or.inl he
    · rw [hdg] at he
      split at he
      · cases he
      · exact Or.inr he
  have hcur : ∀ k', m1.cur k' = if k = k' then none else m.cur k' := by
    intro k'
    simp only [M.cur, hr1, hdg]
    split
    · split
      · rename_i hk; subst hk; rename_i e he; rw [hr] at he; cases he
      · rfl
    · rfl
  have hi1 : Inv m1 := by
    refine ⟨by rw [ha1, hd1]; rfl, fun k' e he => by rw [hl1]; exact hi.bound k' e (hent k' e he),
      fun k1 k2 e he he' => hi.inj k1 k2 e (hent _ _ he) (hent _ _ he'), ?_, ?_, ?_, by rw [hr1]; exact hi.rnd, ?_⟩
    · intro d' hd' k' e hr'
      rw [hd1] at hd'; cases hd'
      rw [hr1] at hr'
      have hk : k ≠ k' := by rintro rfl; rw [hr] at hr'; cases hr'
      rw [hp1, AMap.get_del, if_neg hk]
      exact hi.rd d hd k' e hr'
    · intro h; rw [hd1] at h; cases h
    · intro k' e he
      rw [hdg] at he
      split at he
      · cases he
      · rw [hp1]; exact hi.dne k' e he
    · intro d' hd'; rw [hd1] at hd'; cases hd'; exact AMap.nodup_del (hi.dnd d hd) k
  obtain ⟨h1, h2, h3⟩ := missLocked_trans m1 hi1 (by rw [hd1]; rfl)
  have hdrop : m.dropDirty k = m1.missLocked := by rw [hm1]; rfl
  have habs1 : m1.abs = bind m.abs k none := by
    funext k'
    simp only [M.abs, bind, hcur]
    by_cases hk : k = k'
    · subst hk; simp
    · rw [if_neg hk, if_neg (Ne.symm hk)]
      cases m.cur k' <;> simp [hp1]
  have hgone : ∀ e, m.dirtyGet k = some e → m1.Gone e := by
    intro e he k' hk'
    have := hi.inj k k' e (Or.inr he) (hent _ _ hk')
    subst this
    rcases hk' with hk' | hk'
    · rw [hr1, hr] at hk'; cases hk'
    · rw [hdg, if_pos rfl] at hk'; cases hk'
  have hptr : ∀ e, m1.missLocked.ptr e = m1.ptr e := by
    intro e; unfold M.missLocked; split <;> rfl
  rw [hdrop]
  refine ⟨h1, by rw [h2, habs1], ?_, ?_⟩
  · refine ⟨by rw [← hl1]; exact h3.len, fun k' e hl he => hent k' e (h3.ent k' e (by rw [hl1]; exact hl) he), ?_, ?_, ?_⟩
    · intro k' e hr'; exact h3.rd k' e (by rw [hr1]; exact hr')
    · intro k' e hc
      by_cases hk : k = k'
      · subst hk
        right
        have hde : m.dirtyGet k = some e := by simpa [M.cur, hr] using hc
        refine ⟨h3.gone (by rw [hl1]; exact hi.bound k e (Or.inr hde)) (hgone e hde), ?_, by rw [hptr, hp1]⟩
        rw [h2, habs1]; simp [bind]
      · have := h3.cur k' e (by rw [hcur, if_neg hk]; exact hc)
        rw [hp1] at this
        exact this
    · intro e hl hg
      left; rw [hptr, hp1]
  · intro e he
    refine ⟨Nat.lt_of_lt_of_le (by rw [hl1]; exact hi.bound k e (Or.inr he)) h3.len,
      h3.gone (by rw [hl1]; exact hi.bound k e (Or.inr he)) (hgone e he), ?_, ?_⟩
    · rw [hptr, hp1]; exact hi.dne k e he
    · rw [hptr, hp1]
      rw [abs_cur (e := e)]
      simp [M.cur, hr, he]

end Verif.SyncMap
