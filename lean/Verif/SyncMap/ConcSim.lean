import Verif.SyncMap.ConcInv
set_option linter.unusedSimpArgs false
set_option linter.unusedVariables false
set_option linter.unusedSectionVars false
/-! # The concurrent map simulates the atomic object with hindsight -/
namespace Verif.SyncMap
open Verif
variable {K V : Type} [DecidableEq K]

/-- With the lock held: `e` belongs to `k` and is not expunged. -/
def LK (m : M K V) (k : K) (e : Nat) : Prop := m.Ent k e ∧ m.ptr e ≠ .expunged

/-- `tryLoadOrCreate`'s entry. -/
def LsA (s : Sh K V) (t : Nat) (k : K) (e : Nat) (S : (K → Option V) → Prop) : Lk → Prop
  | .free => HR s.m k e S
  | .lockR => s.mu = some t ∧ LK s.m k e
  | .lockD => s.mu = some t ∧ LK s.m k e ∧ s.m.dirty.isSome

/-- `entry.delete`'s entry. -/
def DeA (s : Sh K V) (op : COp K V) (k : K) (e : Nat) (a : AT K V) : Bool → Prop
  | true => ∃ x, a = .done (delOut op x) ∧ Own s.m e x
  | false => ∃ S, a = .pend op S ∧ HR s.m k e S

/-- Inside `dirtyLocked`. -/
def DlA (s : Sh K V) (t : Nat) (op : COp K V) (a : AT K V) : Prop :=
  ∃ S, a = .pend op S ∧ s.mu = some t ∧ s.bld.isSome ∧ ∀ k v o, newVal op k v o → s.m.read.get k = none

/-- Inside `Range`. -/
def RgA (m : M K V) (td : AMap K Nat) (acc : AMap K V) (S : (K → Option V) → Prop) : Prop :=
  (acc.keys ++ td.keys).Nodup ∧ (∀ k v, (k, v) ∈ acc → ∃ h, S h ∧ h k = some v) ∧
  (∀ k e, (k, e) ∈ td → HL m k e S) ∧ (∀ k, k ∉ acc.keys → k ∉ td.keys → ∃ h, S h ∧ h k = none)

/-- What holds at each point of a thread, and the state of the atomic object's thread. -/
def TA (s : Sh K V) (t : Nat) (pc : PC K V) (a : AT K V) : Prop :=
  match pc with
  | .idle => a = .idle
  | .start op => ∃ S, a = .pend op S
  | .want op => ∃ S, a = .pend op S
  | .ldE k e => ∃ S, a = .pend (.load k) S ∧ HL s.m k e S
  | .stT k v e => ∃ S, a = .pend (.store k v) S ∧ HR s.m k e S
  | .stC k v e p => ∃ S, a = .pend (.store k v) S ∧ HR s.m k e S ∧ p ≠ .expunged
  | .lsT k vals ov e lk => ∃ S, a = .pend (.loadOrCreate k vals) S ∧ (∀ v, ov = some v → v ∈ vals) ∧ LsA s t k e S lk
  | .lsC k vals v e lk => ∃ S, a = .pend (.loadOrCreate k vals) S ∧ v ∈ vals ∧ LsA s t k e S lk
  | .stL k v e => ∃ S, a = .pend (.store k v) S ∧ s.mu = some t ∧ LK s.m k e
  | .unl o => a = .done o ∧ s.mu = some t
  | .miss o => a = .done o ∧ s.mu = some t ∧ s.m.dirty.isSome
  | .dl op => DlA s t op a
  | .dlC op => DlA s t op a
  | .deT op k e own => isDel op k ∧ DeA s op k e a own
  | .deC op k e v own => isDel op k ∧ DeA s op k e a own
  | .rg td acc => ∃ S, a = .pend .range S ∧ RgA s.m td acc S
  | .ret o => a = .done o

/-- The entry a thread has taken out of the dirty map. -/
def owns : PC K V → Option Nat
  | .deT _ _ e true => some e
  | .deC _ _ e _ true => some e
  | _ => none

def isDl : PC K V → Prop
  | .dl _ => True
  | .dlC _ => True
  | _ => False

structure Sim (s : CS K V) (a : AS K V) : Prop where
  f : a.f = s.sh.m.abs
  inv : GInv s.sh.m s.sh.bld
  cur : ∀ t op S, a.th t = .pend op S → S a.f
  th : ∀ t, TA s.sh t (s.th t) (a.th t)
  own : ∀ t t' e, owns (s.th t) = some e → owns (s.th t') = some e → t = t'
  bld : s.sh.bld ≠ none → ∃ t, s.sh.mu = some t ∧ isDl (s.th t)

theorem push_pend (op : COp K V) (S g) : (AT.pend op S).push g = .pend op (add S g) := rfl

theorem LK.soft {m m' : M K V} {k e} (h : LK m k e) (hs : Soft m m') : LK m' k e := by
  refine ⟨?_, fun hh => h.2 ((hs.exp e).mp hh)⟩
  rcases h.1 with h | h
  · left; rw [hs.read]; exact h
  · right; simp only [M.dirtyGet, hs.dirty] at h ⊢; exact h

/-- The threads that do not step. -/
theorem TA.frame {s s' : Sh K V} {x : Option Nat} {u : Nat} {pc : PC K V} {a : AT K V}
    (ht : Trans s.m s'.m x) (hx : ∀ e, owns pc = some e → x ≠ some e)
    (hl : s.mu = some u → s'.mu = some u ∧ Soft s.m s'.m ∧ s'.bld = s.bld) (h : TA s u pc a) :
    TA s' u pc (a.push s'.m.abs) := by
  cases pc with
  | idle => simp only [TA] at h ⊢; rw [h]; rfl
  | start op => obtain ⟨S, rfl⟩ := h; exact ⟨_, rfl⟩
  | want op => obtain ⟨S, rfl⟩ := h; exact ⟨_, rfl⟩
  | ldE k e => obtain ⟨S, rfl, h⟩ := h; exact ⟨_, rfl, h.trans ht⟩
  | stT k v e => obtain ⟨S, rfl, h⟩ := h; exact ⟨_, rfl, h.trans ht⟩
  | stC k v e p => obtain ⟨S, rfl, h, hp⟩ := h; exact ⟨_, rfl, h.trans ht, hp⟩
  | lsT k vals ov e lk =>
    obtain ⟨S, rfl, h1, h⟩ := h
    refine ⟨_, rfl, h1, ?_⟩
    cases lk with
    | free => exact HR.trans h ht
    | lockR =>
      obtain ⟨h1, h2⟩ := h
      obtain ⟨a, b, c⟩ := hl h1
      exact ⟨a, h2.soft b⟩
    | lockD =>
      obtain ⟨h1, h2, h3⟩ := h
      obtain ⟨a, b, c⟩ := hl h1
      exact ⟨a, h2.soft b, by rw [b.dirty]; exact h3⟩
  | lsC k vals v e lk =>
    obtain ⟨S, rfl, h1, h⟩ := h
    refine ⟨_, rfl, h1, ?_⟩
    cases lk with
    | free => exact HR.trans h ht
    | lockR =>
      obtain ⟨h1, h2⟩ := h
      obtain ⟨a, b, c⟩ := hl h1
      exact ⟨a, h2.soft b⟩
    | lockD =>
      obtain ⟨h1, h2, h3⟩ := h
      obtain ⟨a, b, c⟩ := hl h1
      exact ⟨a, h2.soft b, by rw [b.dirty]; exact h3⟩
  | stL k v e =>
    obtain ⟨S, rfl, h1, h2⟩ := h
    obtain ⟨a, b, c⟩ := hl h1
    exact ⟨_, rfl, a, h2.soft b⟩
  | unl o =>
    obtain ⟨rfl, h1⟩ := h
    exact ⟨rfl, (hl h1).1⟩
  | miss o =>
    obtain ⟨rfl, h1, h2⟩ := h
    obtain ⟨a, b, c⟩ := hl h1
    exact ⟨rfl, a, by rw [b.dirty]; exact h2⟩
  | dl op =>
    obtain ⟨S, rfl, h1, h2, h3⟩ := h
    obtain ⟨a, b, c⟩ := hl h1
    exact ⟨_, rfl, a, by rw [c]; exact h2, by rw [b.read]; exact h3⟩
  | dlC op =>
    obtain ⟨S, rfl, h1, h2, h3⟩ := h
    obtain ⟨a, b, c⟩ := hl h1
    exact ⟨_, rfl, a, by rw [c]; exact h2, by rw [b.read]; exact h3⟩
  | deT op k e own =>
    obtain ⟨h1, h⟩ := h
    refine ⟨h1, ?_⟩
    cases own with
    | true =>
      obtain ⟨y, rfl, h⟩ := h
      exact ⟨y, rfl, h.trans ht (hx e rfl)⟩
    | false =>
      obtain ⟨S, rfl, h⟩ := h
      exact ⟨_, rfl, h.trans ht⟩
  | deC op k e v own =>
    obtain ⟨h1, h⟩ := h
    refine ⟨h1, ?_⟩
    cases own with
    | true =>
      obtain ⟨y, rfl, h⟩ := h
      exact ⟨y, rfl, h.trans ht (hx e rfl)⟩
    | false =>
      obtain ⟨S, rfl, h⟩ := h
      exact ⟨_, rfl, h.trans ht⟩
  | rg td acc =>
    obtain ⟨S, rfl, h1, h2, h3, h4⟩ := h
    refine ⟨_, rfl, h1, ?_, fun k e he => (h3 k e he).trans ht, ?_⟩
    · intro k v hk
      obtain ⟨g, a, b⟩ := h2 k v hk
      exact ⟨g, Or.inl a, b⟩
    · intro k hk hk'
      obtain ⟨g, a, b⟩ := h4 k hk hk'
      exact ⟨g, Or.inl a, b⟩
  | ret o => simp only [TA] at h ⊢; rw [h]; rfl

/-- Assembling the simulation after a step of thread `t`. `y` is the new state of `t` in the atomic
object. -/
theorem Sim.build {s : CS K V} {a : AS K V} (h : Sim s a) (t : Nat) (sh' : Sh K V) (pc' : PC K V) (x : Option Nat)
    (y : AT K V) (hx : ∀ e, x = some e → owns (s.th t) = some e)
    (ht : Trans s.sh.m sh'.m x) (hi : GInv sh'.m sh'.bld)
    (hl : ∀ u, u ≠ t → s.sh.mu = some u → sh'.mu = some u ∧ Soft s.sh.m sh'.m ∧ sh'.bld = s.sh.bld)
    (hT : TA sh' t pc' y) (hy : ∀ op S, y = .pend op S → S sh'.m.abs)
    (ho : ∀ e, owns pc' = some e → owns (s.th t) = some e ∨ ∃ k, s.sh.m.Ent k e)
    (hb : sh'.bld ≠ none → ∃ u, sh'.mu = some u ∧ ((u = t ∧ isDl pc') ∨ (u ≠ t ∧ isDl (s.th u)))) :
    Sim ⟨sh', put s.th t pc'⟩ ⟨sh'.m.abs, put (fun u => (a.th u).push sh'.m.abs) t y⟩ := by
  refine ⟨rfl, hi, ?_, ?_, ?_, ?_⟩
  · intro u op S hu
    dsimp only at hu ⊢
    by_cases hut : u = t
    · subst hut; rw [put_self] at hu; exact hy op S hu
    · rw [put_ne _ _ _ _ hut] at hu
      cases ha : a.th u with
      | idle => rw [ha] at hu; cases hu
      | done o => rw [ha] at hu; cases hu
      | pend op' S' => rw [ha] at hu; cases hu; exact Or.inr rfl
  · intro u
    dsimp only
    by_cases hut : u = t
    · subst hut; rw [put_self, put_self]; exact hT
    · rw [put_ne _ _ _ _ hut, put_ne _ _ _ _ hut]
      refine TA.frame ht ?_ (hl u hut) (h.th u)
      intro e he hxe
      exact hut (h.own u t e he (hx e hxe))
  · have key : ∀ u e, u ≠ t → owns (s.th u) = some e → owns pc' = some e → False := by
      intro u e hut hu he
      rcases ho e he with h' | ⟨k, hk⟩
      · exact hut (h.own u t e hu h')
      · have hTu := h.th u
        cases hpc : s.th u <;> rw [hpc] at hu hTu <;> simp only [owns] at hu <;> try cases hu
        · rename_i op k' e' own
          cases own
          · cases hu
          · cases hu
            obtain ⟨_, y, _, h5⟩ := hTu
            exact h5.2.1 k hk
        · rename_i op k' e' v own
          cases own
          · cases hu
          · cases hu
            obtain ⟨_, y, _, h5⟩ := hTu
            exact h5.2.1 k hk
    intro u u' e hu hu'
    dsimp only at hu hu'
    by_cases h1 : u = t
    · by_cases h2 : u' = t
      · rw [h1, h2]
      · subst h1
        rw [put_self] at hu; rw [put_ne _ _ _ _ h2] at hu'
        exact (key u' e h2 hu' hu).elim
    · rw [put_ne _ _ _ _ h1] at hu
      by_cases h2 : u' = t
      · subst h2
        rw [put_self] at hu'
        exact (key u e h1 hu hu').elim
      · rw [put_ne _ _ _ _ h2] at hu'
        exact h.own u u' e hu hu'
  · intro hne
    obtain ⟨u, h1, h2⟩ := hb hne
    refine ⟨u, h1, ?_⟩
    dsimp only
    rcases h2 with ⟨rfl, h2⟩ | ⟨h2, h3⟩
    · rw [put_self]; exact h2
    · rw [put_ne _ _ _ _ h2]; exact h3

/-- Nothing changes for the atomic object's other threads when the map does not change. -/
theorem Sim.push_id {s : CS K V} {a : AS K V} (h : Sim s a) {g} (hg : g = s.sh.m.abs) :
    (fun u => (a.th u).push g) = a.th := by
  funext u
  apply push_same
  intro op S hu
  rw [hg, ← h.f]
  exact h.cur u op S hu

theorem Sim.bld_none {s : CS K V} {a : AS K V} (h : Sim s a) (hm : s.sh.mu = none) : s.sh.bld = none := by
  cases hb : s.sh.bld with
  | none => rfl
  | some b =>
    obtain ⟨t, h1, _⟩ := h.bld (by rw [hb]; simp)
    rw [hm] at h1; cases h1

theorem Sim.bld_none' {s : CS K V} {a : AS K V} (h : Sim s a) {t} (hm : s.sh.mu = some t) (hd : ¬ isDl (s.th t)) :
    s.sh.bld = none := by
  cases hb : s.sh.bld with
  | none => rfl
  | some b =>
    obtain ⟨t', h1, h2⟩ := h.bld (by rw [hb]; simp)
    rw [hm] at h1; cases h1
    exact absurd h2 hd

theorem Sim.inv0 {s : CS K V} {a : AS K V} (h : Sim s a) (hb : s.sh.bld = none) : Inv s.sh.m := by
  have := h.inv; rw [hb] at this; exact this

/-- What a step of the implementation gives: the atomic object follows with the same events. -/
def Follows (a : AS K V) (s' : CS K V) : Prop := ∃ a', (a' = a ∨ BStep a none a') ∧ Sim s' a'

/-- A step that does not touch the memory and does not decide the call. -/
theorem quiet {s : CS K V} {a : AS K V} (h : Sim s a) (t : Nat) (pc' : PC K V)
    (hT : TA s.sh t pc' (a.th t)) (ho : ∀ e, owns pc' = some e → owns (s.th t) = some e)
    (hd : isDl (s.th t) → isDl pc') : Follows a ⟨s.sh, put s.th t pc'⟩ := by
  have := h.build t s.sh pc' none (a.th t) (by intro e he; cases he) (Trans.refl _) h.inv
    (fun u _ hu => ⟨hu, Soft.refl _, rfl⟩) hT (fun op S hy => by rw [← h.f]; exact h.cur t op S hy)
    (fun e he => Or.inl (ho e he)) (by
      intro hb
      obtain ⟨u, h1, h2⟩ := h.bld hb
      refine ⟨u, h1, ?_⟩
      by_cases hu : u = t
      · subst hu; exact Or.inl ⟨rfl, hd h2⟩
      · exact Or.inr ⟨hu, h2⟩)
  rw [h.push_id rfl, put_eq, ← h.f] at this
  exact ⟨a, Or.inl rfl, this⟩

end Verif.SyncMap
