import Verif.SyncMap.ConcSim
set_option linter.unusedSimpArgs false
set_option linter.unusedVariables false
set_option linter.unusedSectionVars false
/-! # The concurrent map is linearizable -/
namespace Verif.SyncMap
open Verif
variable {K V : Type} [DecidableEq K]

/-- How the call of the stepping thread fares: `x` before, `y` after, `f` and `f'` the maps. -/
inductive Dec (x : AT K V) (f f' : K → Option V) : AT K V → Prop
  | same : f' = f → Dec x f f' x
  | obs (op S o h) : x = .pend op S → f' = f → S h → CSpec h op o h → Dec x f f' (.done o)
  | eff (op S o) : x = .pend op S → CSpec f op o f' → Dec x f f' (.done o)
  | rng (S l) : x = .pend .range S → f' = f → RangeOK S l → Dec x f f' (.done (.list l))

theorem follow {s : CS K V} {a : AS K V} (h : Sim s a) {t sh' pc' y}
    (hd : Dec (a.th t) s.sh.m.abs sh'.m.abs y)
    (hs : Sim ⟨sh', put s.th t pc'⟩ ⟨sh'.m.abs, put (fun u => (a.th u).push sh'.m.abs) t y⟩) :
    Follows a ⟨sh', put s.th t pc'⟩ := by
  cases hd with
  | same hf =>
    rw [h.push_id hf, put_eq, hf, ← h.f] at hs
    exact ⟨a, Or.inl rfl, hs⟩
  | obs op S o g hx hf hS hc =>
    refine ⟨_, Or.inr (BStep.obs a t op S o g hx hS hc), ?_⟩
    rw [h.push_id hf, hf, ← h.f] at hs
    exact hs
  | eff op S o hx hc =>
    exact ⟨_, Or.inr (BStep.eff a t op S o sh'.m.abs hx (by rw [h.f]; exact hc)), hs⟩
  | rng S l hx hf hr =>
    refine ⟨_, Or.inr (BStep.rng a t S l hx hr), ?_⟩
    rw [h.push_id hf, hf, ← h.f] at hs
    exact hs

theorem Dec.pend {x : AT K V} {f f' y} (hd : Dec x f f' y) (hx : ∀ op S, x = .pend op S → S f) :
    ∀ op S, y = .pend op S → S f' := by
  intro op S hy
  cases hd with
  | same hf => rw [hf]; exact hx op S hy
  | obs => cases hy
  | eff => cases hy
  | rng => cases hy

theorem Sim.seen {s : CS K V} {a : AS K V} (h : Sim s a) (t) : ∀ op S, a.th t = .pend op S → S s.sh.m.abs := by
  intro op S hy; rw [← h.f]; exact h.cur t op S hy

/-- A step on the memory without the lock. -/
theorem free_step {s : CS K V} {a : AS K V} (h : Sim s a) (t : Nat) (m' : M K V) (pc' : PC K V) (x : Option Nat) (y)
    (hx : ∀ e, x = some e → owns (s.th t) = some e)
    (ht : Trans s.sh.m m' x) (hs : Soft s.sh.m m') (hlen : m'.heap.length = s.sh.m.heap.length)
    (hT : TA { s.sh with m := m' } t pc' y) (hd : Dec (a.th t) s.sh.m.abs m'.abs y)
    (ho : ∀ e, owns pc' = some e → owns (s.th t) = some e) (hdl : ¬ isDl (s.th t)) :
    Follows a ⟨{ s.sh with m := m' }, put s.th t pc'⟩ := by
  refine follow h hd (h.build t { s.sh with m := m' } pc' x y hx ht (hs.ginv hlen h.inv) (fun u _ hu => ⟨hu, hs, rfl⟩) hT
    (hd.pend (h.seen t)) (fun e he => Or.inl (ho e he)) ?_)
  intro hb
  obtain ⟨u, h1, h2⟩ := h.bld hb
  refine ⟨u, h1, Or.inr ⟨?_, h2⟩⟩
  rintro rfl; exact hdl h2

/-- A step with the lock (taken in this step or held by `t`). -/
theorem lock_step {s : CS K V} {a : AS K V} (h : Sim s a) (t : Nat) (sh' : Sh K V) (pc' : PC K V) (y)
    (hm : s.sh.mu = none ∨ s.sh.mu = some t)
    (ht : Trans s.sh.m sh'.m none) (hi : GInv sh'.m sh'.bld)
    (hT : TA sh' t pc' y) (hd : Dec (a.th t) s.sh.m.abs sh'.m.abs y)
    (ho : ∀ e, owns pc' = some e → ∃ k, s.sh.m.Ent k e)
    (hb : sh'.bld ≠ none → sh'.mu = some t ∧ isDl pc') :
    Follows a ⟨sh', put s.th t pc'⟩ := by
  refine follow h hd (h.build t sh' pc' none y (by intro e he; cases he) ht hi ?_ hT
    (hd.pend (h.seen t)) (fun e he => Or.inr (ho e he)) ?_)
  · intro u hu hmu
    rcases hm with hm | hm
    · rw [hm] at hmu; cases hmu
    · rw [hm] at hmu; cases hmu; exact absurd rfl hu
  · intro hne
    obtain ⟨h1, h2⟩ := hb hne
    exact ⟨t, h1, Or.inl ⟨rfl, h2⟩⟩

/-- A step that only decides the call. -/
theorem decide_step {s : CS K V} {a : AS K V} (h : Sim s a) (t : Nat) (pc' : PC K V) (y)
    (hT : TA s.sh t pc' y) (hd : Dec (a.th t) s.sh.m.abs s.sh.m.abs y)
    (ho : ∀ e, owns pc' = some e → owns (s.th t) = some e) (hdl : ¬ isDl (s.th t)) :
    Follows a ⟨s.sh, put s.th t pc'⟩ :=
  free_step h t s.sh.m pc' none y (by intro e he; cases he) (Trans.refl _) (Soft.refl _) rfl hT hd ho hdl

theorem LsA.ent {s : CS K V} {a : AS K V} (h : Sim s a) {t k e S lk} (hl : LsA s.sh t k e S lk)
    (hp : s.sh.m.ptr e ≠ .expunged) : s.sh.m.Ent k e := by
  cases lk with
  | free =>
    rcases hl.2 with h1 | ⟨h1, _⟩
    · exact Or.inl h1
    · exact absurd h1 hp
  | lockR => exact hl.2.1
  | lockD => exact hl.2.1.1

theorem LsA.soft {s s' : Sh K V} {t k e S lk} (hl : LsA s t k e S lk) (hm : s'.mu = s.mu) (hs : Soft s.m s'.m)
    : ∀ o, TA s' t (fin lk o) (.done o) := by
  intro o
  cases lk with
  | free => rfl
  | lockR => exact ⟨rfl, by rw [hm]; exact hl.1⟩
  | lockD => exact ⟨rfl, by rw [hm]; exact hl.1, by rw [hs.dirty]; exact hl.2.2⟩

theorem owns_fin (lk : Lk) (o : Out K V) : owns (fin lk o) = none := by cases lk <;> rfl

theorem HR.ent {m : M K V} {k e S} (h : HR m k e S) (hp : m.ptr e ≠ .expunged) : m.Ent k e := by
  rcases h.2 with h1 | ⟨h1, _⟩
  · exact Or.inl h1
  · exact absurd h1 hp

theorem del_spec {op : COp K V} {k} (h : isDel op k) (f : K → Option V) :
    CSpec f op (delOut op (f k)) (bind f k none) := by
  cases op <;> simp only [isDel] at h <;> subst h <;> exact ⟨rfl, rfl⟩

theorem bind_same {f : K → Option V} {k x} (h : f k = x) : bind f k x = f := by
  funext k'; simp only [bind]; split
  · rename_i hk; rw [hk, h]
  · rfl

theorem del_none {op : COp K V} {k} (h : isDel op k) {f : K → Option V} (hf : f k = none) :
    CSpec f op (delOut op none) f := by
  have := del_spec h f
  rw [bind_same hf, hf] at this
  exact this

theorem new_spec {op : COp K V} {k v o} (h : newVal op k v o) {f : K → Option V} (hf : f k = none) :
    CSpec f op o (bind f k (some v)) := by
  cases op <;> simp only [newVal] at h
  · obtain ⟨rfl, rfl, rfl⟩ := h; exact ⟨rfl, rfl⟩
  · obtain ⟨rfl, h1, rfl⟩ := h; exact Or.inr ⟨hf, v, h1, rfl, rfl⟩

theorem newVal_key {op : COp K V} {k k' v v' o o'} (h : newVal op k v o) (h' : newVal op k' v' o') : k = k' := by
  cases op <;> simp only [newVal] at h h'
  · rw [← h.1, ← h'.1]
  · rw [← h.1, ← h'.1]

theorem load_none {p : Ptr V} (h : p.load = none) : p = .nil ∨ p = .expunged := by
  cases p
  · exact Or.inl rfl
  · exact Or.inr rfl
  · cases h

/-- A range that has just taken its snapshot. -/
theorem rg_start {m : M K V} {b} (hi : GInv m b) (ha : m.amended = false) {S : (K → Option V) → Prop} (hS : S m.abs) :
    RgA m m.read [] S := by
  refine ⟨by simpa [AMap.keys] using hi.rnd, fun k v h => (by cases h), ?_, ?_⟩
  · intro k e he
    have hr := AMap.get_of_mem hi.rnd he
    have hc := hi.cur k e (Or.inl hr)
    exact ⟨hi.bound k e (Or.inl hr), ⟨_, hS, abs_cur hc⟩, Or.inl hc⟩
  · intro k _ hk
    exact ⟨_, hS, abs_clean hi ((AMap.get_eq_none_iff _ k).mpr hk) ha⟩

/-- Every internal step is followed. -/
theorem sim_int {s : CS K V} {a : AS K V} (h : Sim s a) {t sh' pc'} (hs : TStep t s.sh (s.th t) sh' pc') :
    Follows a ⟨sh', put s.th t pc'⟩ := by
  have hT := h.th t
  generalize hpc : s.th t = pc at hs hT
  generalize hsh : s.sh = sh at hs
  cases hs <;> subst hsh
  case ld_hit k e hr =>
    obtain ⟨S, hS⟩ := hT
    refine quiet h t _ ?_ (by intro e he; cases he) (by rw [hpc]; exact id)
    have hc := h.inv.cur k e (Or.inl hr)
    exact ⟨S, hS, h.inv.bound k e (Or.inl hr), ⟨_, h.seen t _ _ hS, abs_cur hc⟩, Or.inl hc⟩
  case ld_none k hr ha =>
    obtain ⟨S, hS⟩ := hT
    exact decide_step h t _ _ rfl (.obs _ _ _ _ hS rfl (h.seen t _ _ hS) ⟨by rw [abs_clean h.inv hr ha], rfl⟩)
      (by intro e he; cases he) (by rw [hpc]; exact id)
  case ld_slow k hr ha =>
    obtain ⟨S, hS⟩ := hT
    exact quiet h t _ ⟨S, hS⟩ (by intro e he; cases he) (by rw [hpc]; exact id)
  case ldw_hit k e hm hr =>
    obtain ⟨S, hS⟩ := hT
    refine quiet h t _ ?_ (by intro e he; cases he) (by rw [hpc]; exact id)
    have hc := h.inv.cur k e (Or.inl hr)
    exact ⟨S, hS, h.inv.bound k e (Or.inl hr), ⟨_, h.seen t _ _ hS, abs_cur hc⟩, Or.inl hc⟩
  case ldw_none k hm hr ha =>
    obtain ⟨S, hS⟩ := hT
    exact decide_step h t _ _ rfl (.obs _ _ _ _ hS rfl (h.seen t _ _ hS) ⟨by rw [abs_clean h.inv hr ha], rfl⟩)
      (by intro e he; cases he) (by rw [hpc]; exact id)
  case ldw_dirty k e hm hr ha hd =>
    obtain ⟨S, hS⟩ := hT
    have hb := h.bld_none hm
    have hds : s.sh.m.dirty.isSome := by rw [← h.inv.am]; exact ha
    obtain ⟨h1, h2, h3⟩ := missLocked_trans _ (h.inv0 hb) hds
    have hc := h.inv.cur k e (Or.inr hd)
    have hL : HL s.sh.m k e S := ⟨h.inv.bound k e (Or.inr hd), ⟨_, h.seen t _ _ hS, abs_cur hc⟩, Or.inl hc⟩
    refine lock_step h t _ _ (a.th t) (Or.inl hm) h3 (by rw [hb]; exact h1) ⟨S, hS, ?_⟩ (.same h2)
      (by intro e he; cases he) (by intro hne; exact absurd hb hne)
    refine (hL.trans h3).mono ?_
    rintro g (hg | rfl)
    · exact hg
    · rw [h2]; exact h.seen t _ _ hS
  case ldw_absent k hm hr ha hd =>
    obtain ⟨S, hS⟩ := hT
    have hb := h.bld_none hm
    have hds : s.sh.m.dirty.isSome := by rw [← h.inv.am]; exact ha
    obtain ⟨h1, h2, h3⟩ := missLocked_trans _ (h.inv0 hb) hds
    have hn : s.sh.m.abs k = none := abs_none (by simp [M.cur, hr, hd])
    exact lock_step h t _ _ _ (Or.inl hm) h3 (by rw [hb]; exact h1) rfl
      (.obs _ _ _ _ hS h2 (h.seen t _ _ hS) ⟨by rw [hn], rfl⟩)
      (by intro e he; cases he) (by intro hne; exact absurd hb hne)
  case ldE k e =>
    obtain ⟨S, hS, _, ⟨g, hg1, hg2⟩, _⟩ := hT
    exact decide_step h t _ _ rfl (.obs _ _ _ _ hS rfl hg1 ⟨by rw [hg2], rfl⟩)
      (by intro e he; cases he) (by rw [hpc]; exact id)
  case st_hit k v e hr =>
    obtain ⟨S, hS⟩ := hT
    exact quiet h t _ ⟨S, hS, h.inv.bound k e (Or.inl hr), Or.inl hr⟩ (by intro e he; cases he) (by rw [hpc]; exact id)
  case st_slow k v hr =>
    obtain ⟨S, hS⟩ := hT
    exact quiet h t _ ⟨S, hS⟩ (by intro e he; cases he) (by rw [hpc]; exact id)
  case stT_exp k v e hp =>
    obtain ⟨S, hS, _⟩ := hT
    exact quiet h t _ ⟨S, hS⟩ (by intro e he; cases he) (by rw [hpc]; exact id)
  case stT k v e hp =>
    obtain ⟨S, hS, hH⟩ := hT
    exact quiet h t _ ⟨S, hS, hH, hp⟩ (by intro e he; cases he) (by rw [hpc]; exact id)
  case stC_ok k v e =>
    obtain ⟨S, hS, hH, hp⟩ := hT
    have he := hH.ent hp
    have hb := h.inv.bound k e he
    exact free_step h t _ _ none _ (by intro e he; cases he) (setPtr_trans he hb)
      (setPtr_soft hb (by intro hh; cases hh) hp) (setPtr_len _ _ _) rfl
      (.eff _ _ _ hS ⟨rfl, setPtr_abs' h.inv he _⟩) (by intro e he; cases he) (by rw [hpc]; exact id)
  case stC_fail k v e p =>
    obtain ⟨S, hS, hH, hp⟩ := hT
    exact quiet h t _ ⟨S, hS, hH⟩ (by intro e he; cases he) (by rw [hpc]; exact id)
  case stw_read k v e hm hr =>
    obtain ⟨S, hS⟩ := hT
    have hb := h.bld_none hm
    obtain ⟨h1, h2, h3, h4, h5⟩ := unexpunge_trans _ (h.inv0 hb) hr
    exact lock_step h t _ _ (a.th t) (Or.inl hm) h3 (by rw [hb]; exact h1)
      ⟨S, hS, rfl, Or.inl (by dsimp only; rw [h4]; exact hr), h5⟩ (.same h2)
      (by intro e he; cases he) (by intro hne; exact absurd hb hne)
  case stw_dirty k v e hm hr hd =>
    obtain ⟨S, hS⟩ := hT
    have hb := h.bld_none hm
    exact lock_step h t _ _ (a.th t) (Or.inl hm) (Trans.refl _) h.inv
      ⟨S, hS, rfl, Or.inr hd, (h.inv0 hb).dne k e hd⟩ (.same rfl)
      (by intro e he; cases he) (by intro hne; exact absurd hb hne)
  case stL k v e =>
    obtain ⟨S, hS, hm, he, hp⟩ := hT
    have hb := h.inv.bound k e he
    exact free_step h t _ _ none _ (by intro e he; cases he) (setPtr_trans he hb)
      (setPtr_soft hb (by intro hh; cases hh) hp) (setPtr_len _ _ _) ⟨rfl, hm⟩
      (.eff _ _ _ hS ⟨rfl, setPtr_abs' h.inv he _⟩) (by intro e he; cases he) (by rw [hpc]; exact id)
  case unl o =>
    obtain ⟨hS, hm⟩ := hT
    have hb := h.bld_none' hm (by rw [hpc]; exact id)
    exact lock_step h t _ _ (a.th t) (Or.inr hm) (Trans.refl _) h.inv hS (.same rfl)
      (by intro e he; cases he) (by intro hne; exact absurd hb hne)
  case ins op k v o hv hm hr hd ha =>
    obtain ⟨S, hS⟩ := hT
    have hb := h.bld_none hm
    obtain ⟨h1, h2, h3⟩ := insertNew_trans _ (h.inv0 hb) v hr hd ha
    have hn : s.sh.m.abs k = none := abs_none (by simp [M.cur, hr, hd])
    exact lock_step h t _ _ _ (Or.inl hm) h3 (by rw [hb]; exact h1) rfl
      (.eff _ _ _ hS (by dsimp only; rw [h2]; exact new_spec hv hn))
      (by intro e he; cases he) (by intro hne; exact absurd hb hne)
  case ins_dl op k v o hv hm hr hd ha =>
    obtain ⟨S, hS⟩ := hT
    have hb := h.bld_none hm
    obtain ⟨h1, h2⟩ := begin_inv _ (h.inv0 hb) ha
    have e0 : s.sh.m.startCopy = (s.sh.m.read, ([] : AMap K Nat)) := by unfold M.startCopy; rw [h1]
    rw [e0]
    exact lock_step h t _ _ (a.th t) (Or.inl hm) (Trans.refl _) h2
      ⟨S, hS, rfl, rfl, fun k' v' o' hv' => by rw [newVal_key hv' hv]; exact hr⟩ (.same rfl)
      (by intro e he; cases he) (by intro _; exact ⟨rfl, trivial⟩)
  case dl_nil op k e td d hb hp =>
    exact quiet h t _ hT (by intro e he; cases he) (fun _ => trivial)
  case dl_exp op k e td d hb hp =>
    exfalso
    have hi := h.inv
    rw [hb] at hi
    exact (hi.htd k e (get_cons_self k e td)).2.1 hp
  case dl_val op k e td d v hb hp =>
    obtain ⟨S, hS, hm, hbs, hk⟩ := hT
    have hi := h.inv
    rw [hb] at hi
    exact lock_step h t _ _ (a.th t) (Or.inr hm) (Trans.refl _) (bld_val hi hp)
      ⟨S, hS, hm, rfl, hk⟩ (.same rfl) (by intro e he; cases he) (by intro _; exact ⟨hm, trivial⟩)
  case dlC_ok op k e td d hb hp =>
    obtain ⟨S, hS, hm, hbs, hk⟩ := hT
    have hi := h.inv
    rw [hb] at hi
    obtain ⟨h1, h2, h3⟩ := bld_expunge hi hp
    exact lock_step h t _ _ (a.th t) (Or.inr hm) h3 h1
      ⟨S, hS, hm, rfl, hk⟩ (.same h2) (by intro e he; cases he) (by intro _; exact ⟨hm, trivial⟩)
  case dlC_fail op =>
    exact quiet h t _ hT (by intro e he; cases he) (fun _ => trivial)
  case dl_end op k v o d hv hb =>
    obtain ⟨S, hS, hm, hbs, hk⟩ := hT
    have hi := h.inv
    rw [hb] at hi
    have hr := hk k v o hv
    obtain ⟨h1, h2, h3⟩ := commit_trans v hi hr
    have hn : s.sh.m.abs k = none := abs_clean h.inv hr (BInv.am hi)
    exact lock_step h t _ _ _ (Or.inr hm) h3 h1 rfl
      (.eff _ _ _ hS (by dsimp only; rw [h2]; exact new_spec hv hn))
      (by intro e he; cases he) (by intro hne; exact absurd rfl hne)
  case lc_hit k vals e hr =>
    obtain ⟨S, hS⟩ := hT
    exact quiet h t _ ⟨S, hS, (by intro v hv; cases hv), h.inv.bound k e (Or.inl hr), Or.inl hr⟩
      (by intro e he; cases he) (by rw [hpc]; exact id)
  case lc_slow k vals hr =>
    obtain ⟨S, hS⟩ := hT
    exact quiet h t _ ⟨S, hS⟩ (by intro e he; cases he) (by rw [hpc]; exact id)
  case lcw_read k vals e hm hr =>
    obtain ⟨S, hS⟩ := hT
    have hb := h.bld_none hm
    obtain ⟨h1, h2, h3, h4, h5⟩ := unexpunge_trans _ (h.inv0 hb) hr
    exact lock_step h t _ _ (a.th t) (Or.inl hm) h3 (by rw [hb]; exact h1)
      ⟨S, hS, (by intro v hv; cases hv), rfl, Or.inl (by dsimp only; rw [h4]; exact hr), h5⟩ (.same h2)
      (by intro e he; cases he) (by intro hne; exact absurd hb hne)
  case lcw_dirty k vals e hm hr hd =>
    obtain ⟨S, hS⟩ := hT
    have hb := h.bld_none hm
    obtain ⟨d, hd'⟩ := dirty_of_dirtyGet _ k e hd
    exact lock_step h t _ _ (a.th t) (Or.inl hm) (Trans.refl _) h.inv
      ⟨S, hS, (by intro v hv; cases hv), rfl, ⟨Or.inr hd, (h.inv0 hb).dne k e hd⟩, by dsimp only; rw [hd']; rfl⟩ (.same rfl)
      (by intro e he; cases he) (by intro hne; exact absurd hb hne)
  case lsT_exp k vals ov e hp =>
    obtain ⟨S, hS, _⟩ := hT
    exact quiet h t _ ⟨S, hS⟩ (by intro e he; cases he) (by rw [hpc]; exact id)
  case lsT_bad k vals ov e lk hlk hp =>
    exfalso
    obtain ⟨S, hS, _, hl⟩ := hT
    cases lk with
    | free => exact hlk rfl
    | lockR => exact hl.2.2 hp
    | lockD => exact hl.2.1.2 hp
  case lsT_val k vals ov e lk w hp =>
    obtain ⟨S, hS, _, hl⟩ := hT
    have he := hl.ent h (by rw [hp]; intro hh; cases hh)
    have hc := h.inv.cur k e he
    have hw : s.sh.m.abs k = some w := by rw [abs_cur hc, hp]; rfl
    exact decide_step h t _ _ (hl.soft rfl (Soft.refl _) _)
      (.obs _ _ _ _ hS rfl (h.seen t _ _ hS) (Or.inl ⟨w, hw, rfl, rfl⟩))
      (by intro e he; rw [owns_fin] at he; cases he) (by rw [hpc]; exact id)
  case lsT_nil k vals ov e lk v hv hp =>
    obtain ⟨S, hS, hov, hl⟩ := hT
    refine quiet h t _ ⟨S, hS, ?_, hl⟩ (by intro e he; cases he) (by rw [hpc]; exact id)
    cases ov with
    | none => exact hv
    | some w => have hv : v = w := hv; rw [hv]; exact hov w rfl
  case lsC_ok k vals v e lk hp =>
    obtain ⟨S, hS, hv, hl⟩ := hT
    have hpx : s.sh.m.ptr e ≠ .expunged := by rw [hp]; intro hh; cases hh
    have he := hl.ent h hpx
    have hb := h.inv.bound k e he
    have hc := h.inv.cur k e he
    have hn : s.sh.m.abs k = none := by rw [abs_cur hc, hp]; rfl
    have hsoft := setPtr_soft (m := s.sh.m) (p := Ptr.val v) hb (by intro hh; cases hh) hpx
    exact free_step h t _ _ none _ (by intro e he; cases he) (setPtr_trans he hb) hsoft (setPtr_len _ _ _)
      (hl.soft (s' := { s.sh with m := s.sh.m.setPtr e (.val v) }) rfl hsoft _)
      (.eff _ _ _ hS (Or.inr ⟨hn, v, hv, rfl, setPtr_abs' h.inv he _⟩))
      (by intro e he; rw [owns_fin] at he; cases he) (by rw [hpc]; exact id)
  case lsC_fail k vals v e lk =>
    obtain ⟨S, hS, hv, hl⟩ := hT
    exact quiet h t _ ⟨S, hS, (by intro w hw; cases hw; exact hv), hl⟩ (by intro e he; cases he) (by rw [hpc]; exact id)
  case miss o =>
    obtain ⟨hS, hm, hds⟩ := hT
    have hb := h.bld_none' hm (by rw [hpc]; exact id)
    obtain ⟨h1, h2, h3⟩ := missLocked_trans _ (h.inv0 hb) hds
    exact lock_step h t _ _ (a.th t) (Or.inr hm) h3 (by rw [hb]; exact h1) hS (.same h2)
      (by intro e he; cases he) (by intro hne; exact absurd hb hne)
  case de_hit op k e hop hr =>
    obtain ⟨S, hS⟩ := hT
    exact quiet h t _ ⟨hop, S, hS, h.inv.bound k e (Or.inl hr), Or.inl hr⟩ (by intro e he; cases he)
      (by rw [hpc]; exact id)
  case de_none op k hop hr ha =>
    obtain ⟨S, hS⟩ := hT
    exact decide_step h t _ _ rfl (.obs _ _ _ _ hS rfl (h.seen t _ _ hS) (del_none hop (abs_clean h.inv hr ha)))
      (by intro e he; cases he) (by rw [hpc]; exact id)
  case de_slow op k hop hr ha =>
    obtain ⟨S, hS⟩ := hT
    exact quiet h t _ ⟨S, hS⟩ (by intro e he; cases he) (by rw [hpc]; exact id)
  case dew_hit op k e hop hm hr =>
    obtain ⟨S, hS⟩ := hT
    exact quiet h t _ ⟨hop, S, hS, h.inv.bound k e (Or.inl hr), Or.inl hr⟩ (by intro e he; cases he)
      (by rw [hpc]; exact id)
  case dew_none op k hop hm hr ha =>
    obtain ⟨S, hS⟩ := hT
    exact decide_step h t _ _ rfl (.obs _ _ _ _ hS rfl (h.seen t _ _ hS) (del_none hop (abs_clean h.inv hr ha)))
      (by intro e he; cases he) (by rw [hpc]; exact id)
  case dew_dirty op k e hop hm hr ha hd =>
    obtain ⟨S, hS⟩ := hT
    have hb := h.bld_none hm
    obtain ⟨h1, h2, h3, h4⟩ := drop_trans (h.inv0 hb) ha hr
    refine lock_step h t _ _ (.done (delOut op (s.sh.m.abs k))) (Or.inl hm) h3 (by rw [hb]; exact h1)
      ⟨hop, _, rfl, h4 e hd⟩ (.eff _ _ _ hS (by dsimp only; rw [h2]; exact del_spec hop _)) ?_
      (by intro hne; exact absurd hb hne)
    intro e' he'
    cases he'
    exact ⟨k, Or.inr hd⟩
  case dew_absent op k hop hm hr ha hd =>
    obtain ⟨S, hS⟩ := hT
    have hb := h.bld_none hm
    obtain ⟨h1, h2, h3, h4⟩ := drop_trans (h.inv0 hb) ha hr
    have hn : s.sh.m.abs k = none := abs_none (by simp [M.cur, hr, hd])
    have h2' : (s.sh.m.dropDirty k).abs = s.sh.m.abs := by rw [h2, bind_same hn]
    exact lock_step h t _ _ _ (Or.inl hm) h3 (by rw [hb]; exact h1) rfl
      (.obs _ _ _ _ hS h2' (h.seen t _ _ hS) (del_none hop hn)) (by intro e he; cases he)
      (by intro hne; exact absurd hb hne)
  case deT_none op k e own hp =>
    obtain ⟨hop, hD⟩ := hT
    cases own with
    | true =>
      obtain ⟨x, hS, hO⟩ := hD
      have hx : x = none := by rw [← hO.2.2.2, hp]
      subst hx
      exact quiet h t _ hS (by intro e he; cases he) (by rw [hpc]; exact id)
    | false =>
      obtain ⟨S, hS, hH⟩ := hD
      obtain ⟨g, hg1, hg2⟩ : ∃ g, S g ∧ g k = none := by
        rcases hH.2 with hr | ⟨_, _, g⟩
        · exact ⟨_, h.seen t _ _ hS, by rw [abs_cur (h.inv.cur k e (Or.inl hr)), hp]⟩
        · exact g
      exact decide_step h t _ _ rfl (.obs _ _ _ _ hS rfl hg1 (del_none hop hg2))
        (by intro e he; cases he) (by rw [hpc]; exact id)
  case deT_val op k e own v hp =>
    refine quiet h t _ hT ?_ (by rw [hpc]; exact id)
    intro e' he'; rw [hpc]; cases own
    · cases he'
    · exact he'
  case deC_ok op k e v own hp =>
    obtain ⟨hop, hD⟩ := hT
    have hpx : s.sh.m.ptr e ≠ .expunged := by rw [hp]; intro hh; cases hh
    cases own with
    | true =>
      obtain ⟨x, hS, hO⟩ := hD
      have hx : x = some v := by rw [← hO.2.2.2, hp]; rfl
      subst hx
      exact free_step h t _ _ (some e) (a.th t) (by intro e' he'; cases he'; rw [hpc]; rfl) (own_trans hO)
        (setPtr_soft hO.1 (by intro hh; cases hh) hpx) (setPtr_len _ _ _) hS
        (.same (setPtr_abs_same hO.1 (Or.inl hO.2.1))) (by intro e he; cases he) (by rw [hpc]; exact id)
    | false =>
      obtain ⟨S, hS, hH⟩ := hD
      have he := hH.ent hpx
      have hb := h.inv.bound k e he
      have hc := h.inv.cur k e he
      have hv : s.sh.m.abs k = some v := by rw [abs_cur hc, hp]; rfl
      have := del_spec hop s.sh.m.abs
      rw [hv] at this
      exact free_step h t _ _ none _ (by intro e he; cases he) (setPtr_trans he hb)
        (setPtr_soft hb (by intro hh; cases hh) hpx) (setPtr_len _ _ _) rfl
        (.eff _ _ _ hS (by rw [setPtr_abs' h.inv he]; exact this)) (by intro e he; cases he) (by rw [hpc]; exact id)
  case deC_fail op k e v own =>
    refine quiet h t _ hT ?_ (by rw [hpc]; exact id)
    intro e' he'; rw [hpc]; cases own
    · cases he'
    · exact he'
  case rg_clean ha =>
    obtain ⟨S, hS⟩ := hT
    exact quiet h t _ ⟨S, hS, rg_start h.inv ha (h.seen t _ _ hS)⟩ (by intro e he; cases he) (by rw [hpc]; exact id)
  case rg_slow ha =>
    obtain ⟨S, hS⟩ := hT
    exact quiet h t _ ⟨S, hS⟩ (by intro e he; cases he) (by rw [hpc]; exact id)
  case rgw hm =>
    obtain ⟨S, hS⟩ := hT
    have hb := h.bld_none hm
    obtain ⟨h1, h2, h3, h4⟩ := promote_trans _ (h.inv0 hb)
    exact lock_step h t _ _ (a.th t) (Or.inl hm) h3 (by rw [hb]; exact h1)
      ⟨S, hS, rg_start (b := none) h1 h4 (by rw [h2]; exact h.seen t _ _ hS)⟩ (.same h2)
      (by intro e he; cases he) (by intro hne; exact absurd hb hne)
  case rg_skip k e td acc hp =>
    obtain ⟨S, hS, h1, h2, h3, h4⟩ := hT
    refine quiet h t _ ⟨S, hS, ?_, h2, fun k' e' he' => h3 k' e' (List.mem_cons_of_mem _ he'), ?_⟩
      (by intro e he; cases he) (by rw [hpc]; exact id)
    · refine h1.sublist ?_
      simp only [AMap.keys, List.map_cons]
      exact List.Sublist.append_left (List.sublist_cons_self _ _) _
    · intro k' hk1 hk2
      by_cases hk : k' = k
      · subst hk
        obtain ⟨_, ⟨g, hg1, hg2⟩, _⟩ := h3 k' e (by simp)
        exact ⟨g, hg1, by rw [hg2, hp]⟩
      · refine h4 k' hk1 ?_
        simp only [AMap.keys, List.map_cons, List.mem_cons, not_or]
        exact ⟨hk, hk2⟩
  case rg_visit k e td acc v hp =>
    obtain ⟨S, hS, h1, h2, h3, h4⟩ := hT
    refine quiet h t _ ⟨S, hS, ?_, ?_, fun k' e' he' => h3 k' e' (List.mem_cons_of_mem _ he'), ?_⟩
      (by intro e he; cases he) (by rw [hpc]; exact id)
    · simpa [AMap.keys] using h1
    · intro k' v' hk'
      simp only [List.mem_append, List.mem_singleton, Prod.mk.injEq] at hk'
      rcases hk' with hk' | ⟨rfl, rfl⟩
      · exact h2 k' v' hk'
      · obtain ⟨_, ⟨g, hg1, hg2⟩, _⟩ := h3 k' e (by simp)
        exact ⟨g, hg1, by rw [hg2, hp]⟩
    · intro k' hk1 hk2
      simp only [AMap.keys, List.map_append, List.map_cons, List.map_nil, List.mem_append, List.mem_singleton, not_or] at hk1
      refine h4 k' hk1.1 ?_
      simp only [AMap.keys, List.map_cons, List.mem_cons, not_or]
      exact ⟨hk1.2, hk2⟩
  case rg_end acc =>
    obtain ⟨S, hS, h1, h2, h3, h4⟩ := hT
    have hnd : acc.keys.Nodup := by simpa [AMap.keys] using h1
    refine decide_step h t _ _ rfl (.rng S acc hS rfl ⟨hnd, ?_⟩) (by intro e he; cases he) (by rw [hpc]; exact id)
    intro k
    cases hg : acc.get k with
    | none => exact h4 k ((AMap.get_eq_none_iff _ k).mp hg) (by simp [AMap.keys])
    | some v => exact h2 k v (AMap.mem_of_get _ hg)

/-- Every execution of the concurrent map is followed by the atomic object with hindsight. -/
theorem follows_exec {tr} {s : CS K V} (h : Exec tr s) : ∃ a, BExec tr a ∧ Sim s a := by
  induction h with
  | init =>
    refine ⟨_, BExec.init, ?_, ?_, ?_, fun t => rfl, ?_, ?_⟩
    · funext k; simp [M.abs, M.cur, M.dirtyGet, empty]
    · exact Inv.empty
    · intro t op S h; cases h
    · intro t t' e h; cases h
    · intro h; exact absurd rfl h
  | step tr s l s' _ hs ih =>
    obtain ⟨a, ha, hsim⟩ := ih
    cases hs with
    | inv t op ht =>
      have hTt := hsim.th t
      rw [ht] at hTt
      refine ⟨_, BExec.step _ _ _ _ ha (BStep.inv a t op hTt), hsim.f, hsim.inv, ?_, ?_, ?_, ?_⟩
      · intro u op' S hu
        dsimp only at hu ⊢
        by_cases hut : u = t
        · subst hut; rw [put_self] at hu; cases hu; rfl
        · rw [put_ne _ _ _ _ hut] at hu; exact hsim.cur u op' S hu
      · intro u
        dsimp only
        by_cases hut : u = t
        · subst hut; rw [put_self, put_self]; exact ⟨_, rfl⟩
        · rw [put_ne _ _ _ _ hut, put_ne _ _ _ _ hut]; exact hsim.th u
      · intro u u' e hu hu'
        dsimp only at hu hu'
        by_cases h1 : u = t
        · subst h1; rw [put_self] at hu; cases hu
        · by_cases h2 : u' = t
          · subst h2; rw [put_self] at hu'; cases hu'
          · rw [put_ne _ _ _ _ h1] at hu; rw [put_ne _ _ _ _ h2] at hu'
            exact hsim.own u u' e hu hu'
      · intro hb
        obtain ⟨u, h1, h2⟩ := hsim.bld hb
        refine ⟨u, h1, ?_⟩
        dsimp only
        rw [put_ne]
        · exact h2
        · rintro rfl; rw [ht] at h2; exact h2
    | ret t o ht =>
      have hTt := hsim.th t
      rw [ht] at hTt
      refine ⟨_, BExec.step _ _ _ _ ha (BStep.ret a t o hTt), hsim.f, hsim.inv, ?_, ?_, ?_, ?_⟩
      · intro u op' S hu
        dsimp only at hu ⊢
        by_cases hut : u = t
        · subst hut; rw [put_self] at hu; cases hu
        · rw [put_ne _ _ _ _ hut] at hu; exact hsim.cur u op' S hu
      · intro u
        dsimp only
        by_cases hut : u = t
        · subst hut; rw [put_self, put_self]; rfl
        · rw [put_ne _ _ _ _ hut, put_ne _ _ _ _ hut]; exact hsim.th u
      · intro u u' e hu hu'
        dsimp only at hu hu'
        by_cases h1 : u = t
        · subst h1; rw [put_self] at hu; cases hu
        · by_cases h2 : u' = t
          · subst h2; rw [put_self] at hu'; cases hu'
          · rw [put_ne _ _ _ _ h1] at hu; rw [put_ne _ _ _ _ h2] at hu'
            exact hsim.own u u' e hu hu'
      · intro hb
        obtain ⟨u, h1, h2⟩ := hsim.bld hb
        refine ⟨u, h1, ?_⟩
        dsimp only
        rw [put_ne]
        · exact h2
        · rintro rfl; rw [ht] at h2; exact h2
    | int t sh' pc' hs =>
      obtain ⟨a', h1, h2⟩ := sim_int hsim hs
      rcases h1 with rfl | h1
      · exact ⟨a', ha, h2⟩
      · exact ⟨a', BExec.step _ _ _ _ ha h1, h2⟩

/-- **The concurrent map is linearizable.** Whatever the number of threads and however their atomic steps
interleave, the calls and returns an observer sees are those of a plain map in which every call takes
effect at one instant between its invocation and its return (`Range`: per key). -/
theorem linearizable {tr : List (Ev K V)} {s : CS K V} (h : Exec tr s) : ∃ a, AExec tr a := by
  obtain ⟨a, ha, _⟩ := follows_exec h
  exact ⟨a, ha.atomic⟩

end Verif.SyncMap
