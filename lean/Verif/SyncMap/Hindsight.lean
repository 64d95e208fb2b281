import Verif.SyncMap.Conc
set_option linter.unusedSimpArgs false
set_option linter.unusedVariables false
set_option linter.unusedSectionVars false
/-!
# Linearization in hindsight

A call that changes nothing may be linearized at any earlier moment of the call. `BStep` is the atomic
object with that freedom; every trace of it is a trace of the atomic object.
-/
namespace Verif.SyncMap
open Verif
variable {K V : Type} [DecidableEq K]

inductive BStep : AS K V → Option (Ev K V) → AS K V → Prop
  | inv (a t op) : a.th t = .idle →
      BStep a (some (.inv t op)) { a with th := put a.th t (.pend op (fun h => h = a.f)) }
  | eff (a t op S o g) : a.th t = .pend op S → CSpec a.f op o g →
      BStep a none ⟨g, put (fun u => (a.th u).push g) t (.done o)⟩
  | obs (a t op S o h) : a.th t = .pend op S → S h → CSpec h op o h →
      BStep a none { a with th := put a.th t (.done o) }
  | rng (a t S l) : a.th t = .pend .range S → RangeOK S l →
      BStep a none { a with th := put a.th t (.done (.list l)) }
  | ret (a t o) : a.th t = .done o → BStep a (some (.ret t o)) { a with th := put a.th t .idle }

inductive BExec : List (Ev K V) → AS K V → Prop
  | init : BExec [] ⟨fun _ => none, fun _ => .idle⟩
  | step (tr a l a') : BExec tr a → BStep a l a' → BExec (app tr l) a'

theorem put_self {α : Type} (f : Nat → α) (t : Nat) (x : α) : put f t x t = x := by simp [put]
theorem put_ne {α : Type} (f : Nat → α) (t u : Nat) (x : α) (h : u ≠ t) : put f t x u = f u := by simp [put, h]
theorem put_put {α : Type} (f : Nat → α) (t : Nat) (x y : α) : put (put f t x) t y = put f t y := by
  funext u; simp only [put]; split <;> rfl
theorem put_eq {α : Type} (f : Nat → α) (t : Nat) : put f t (f t) = f := by
  funext u; simp only [put]; split
  · rename_i h; rw [h]
  · rfl

/-- Every call in progress has seen the current map, and only finitely many threads exist. -/
structure AInv (a : AS K V) : Prop where
  cur : ∀ t op S, a.th t = .pend op S → S a.f
  fin : ∃ N, ∀ t, N ≤ t → a.th t = .idle

theorem AInv.put {a : AS K V} (h : AInv a) (t : Nat) (x : AT K V) (hx : ∀ op S, x = .pend op S → S a.f) :
    AInv { a with th := put a.th t x } := by
  constructor
  · intro u op S hu
    simp only [SyncMap.put] at hu
    split at hu
    · exact hx op S hu
    · exact h.cur u op S hu
  · obtain ⟨N, hN⟩ := h.fin
    refine ⟨max N (t + 1), fun u hu => ?_⟩
    dsimp only
    have hut : u ≠ t := by omega
    rw [put_ne _ _ _ _ hut]
    exact hN u (by omega)

theorem push_idle (g : K → Option V) (x : AT K V) : x.push g = .idle ↔ x = .idle := by
  cases x <;> simp [AT.push]

theorem AInv.push {a : AS K V} (h : AInv a) (g : K → Option V) :
    AInv ⟨g, fun u => (a.th u).push g⟩ := by
  constructor
  · intro u op S hu
    simp only at hu
    cases ha : a.th u with
    | idle => rw [ha] at hu; simp [AT.push] at hu
    | done o => rw [ha] at hu; simp [AT.push] at hu
    | pend op' S' => rw [ha] at hu; simp only [AT.push, AT.pend.injEq] at hu; rw [← hu.2]; exact Or.inr rfl
  · obtain ⟨N, hN⟩ := h.fin
    exact ⟨N, fun u hu => by simp only [hN u hu, AT.push]⟩

theorem BStep.inv_pres {a a' : AS K V} {l} (h : BStep a l a') (hi : AInv a) : AInv a' := by
  cases h with
  | inv t op ht => exact hi.put t _ (by intro op S h; cases h; rfl)
  | eff t op S o g ht hs => exact (hi.push g).put t _ (by intro op S h; cases h)
  | obs t op S o h ht hS hs => exact hi.put t _ (by intro op S h; cases h)
  | rng t S l ht hr => exact hi.put t _ (by intro op S h; cases h)
  | ret t o ht => exact hi.put t _ (by intro op S h; cases h)

theorem BExec.inv {tr} {a : AS K V} (h : BExec tr a) : AInv a := by
  induction h with
  | init => exact ⟨by intro t op S h; simp at h, 0, fun _ _ => rfl⟩
  | step tr a l a' _ hs ih => exact hs.inv_pres ih

/-- `x` (the atomic object's thread) against `y` (the thread with hindsight): the atomic object may have
linearized an unfinished call already. -/
def RT (y x : AT K V) : Prop :=
  x = y ∨ ∃ op S o h, y = .pend op S ∧ x = .done o ∧ S h ∧ CSpec h op o h

def R (b a : AS K V) : Prop := a.f = b.f ∧ ∀ t, RT (b.th t) (a.th t)

theorem RT_idle (x : AT K V) (h : RT .idle x) : x = .idle := by
  rcases h with h | ⟨_, _, _, _, h, _⟩
  · exact h
  · cases h

theorem RT_done (o : Out K V) (x : AT K V) (h : RT (.done o) x) : x = .done o := by
  rcases h with h | ⟨_, _, _, _, h, _⟩
  · exact h
  · cases h

theorem push_same (f : K → Option V) (x : AT K V) (h : ∀ op S, x = .pend op S → S f) : x.push f = x := by
  cases x with
  | idle => rfl
  | done o => rfl
  | pend op S =>
    simp only [AT.push, AT.pend.injEq, true_and]
    funext h'
    apply propext
    constructor
    · rintro (h1 | rfl)
      · exact h1
      · exact h op S rfl
    · exact Or.inl

/-- The R-related atomic state is itself consistent. -/
theorem R.cur {b a : AS K V} (h : R b a) (hi : AInv b) : ∀ t op S, a.th t = .pend op S → S a.f := by
  intro t op S ht
  rw [h.1]
  rcases h.2 t with h1 | ⟨_, _, _, _, _, h2, _⟩
  · rw [ht] at h1; exact hi.cur t op S h1.symm
  · rw [ht] at h2; cases h2

/-- Linearizing a call that changes nothing. -/
theorem lin_same {tr} {a : AS K V} (ha : AExec tr a) (hc : ∀ t op S, a.th t = .pend op S → S a.f)
    (t : Nat) (op : COp K V) (S) (o : Out K V) (ht : a.th t = .pend op S) (hs : CSpec a.f op o a.f) :
    AExec tr { a with th := put a.th t (.done o) } := by
  have := AExec.step tr a none _ ha (AStep.lin a t op S o a.f ht hs)
  have e : (fun u => (a.th u).push a.f) = a.th := by
    funext u; exact push_same a.f (a.th u) (fun op S => hc u op S)
  rw [e] at this
  exact this

/-- Linearizing any number of such calls. -/
theorem lin_many (N : Nat) : ∀ {tr} {a : AS K V} (ha : AExec tr a)
    (hc : ∀ t op S, a.th t = .pend op S → S a.f) (x : Nat → AT K V)
    (hx : ∀ t, x t = a.th t ∨ ∃ op S o, a.th t = .pend op S ∧ x t = .done o ∧ CSpec a.f op o a.f)
    (hN : ∀ t, N ≤ t → x t = a.th t), AExec tr { a with th := x } := by
  induction N with
  | zero =>
    intro tr a ha hc x hx hN
    have : x = a.th := by funext t; exact hN t (Nat.zero_le t)
    rw [this]; exact ha
  | succ N ih =>
    intro tr a ha hc x hx hN
    have h1 := ih ha hc (put x N (a.th N)) (by
      intro t
      by_cases h : t = N
      · subst h; exact Or.inl (put_self _ _ _)
      · rw [put_ne _ _ _ _ h]; exact hx t) (by
      intro t ht
      by_cases h : t = N
      · subst h; exact put_self _ _ _
      · rw [put_ne _ _ _ _ h]; exact hN t (by omega))
    rcases hx N with h2 | ⟨op, S, o, h2, h3, h4⟩
    · rw [← h2, put_eq] at h1; exact h1
    · have h5 := lin_same h1 (by
        intro t op' S' ht
        simp only at ht ⊢
        by_cases h : t = N
        · subst h; rw [put_self] at ht; exact hc _ _ _ ht
        · rw [put_ne _ _ _ _ h] at ht
          rcases hx t with h6 | ⟨_, _, _, _, h6, _⟩
          · rw [h6] at ht; exact hc _ _ _ ht
          · rw [h6] at ht; cases ht) N op S o (by simp only [put_self]; exact h2) h4
      simp only [put_put, ← h3, put_eq] at h5
      exact h5

open scoped Classical in
/-- Backward simulation of one step. -/
theorem back_step {tr} {b b' : AS K V} {l} (hb : AInv b) (hs : BStep b l b')
    (ih : ∀ a, R b a → AExec tr a) (a' : AS K V) (hR : R b' a') : AExec (app tr l) a' := by
  obtain ⟨hf, hT⟩ := hR
  cases hs with
  | inv t op0 ht =>
    simp only at hf hT
    have h0 : R b { a' with th := put a'.th t .idle } := by
      refine ⟨hf, fun u => ?_⟩
      dsimp only
      by_cases h : u = t
      · subst h; rw [put_self, ht]; exact Or.inl rfl
      · rw [put_ne _ _ _ _ h]; have := hT u; rw [put_ne _ _ _ _ h] at this; exact this
    have h1 := AExec.step _ _ _ _ (ih _ h0) (AStep.inv _ t op0 (put_self _ _ _))
    simp only [put_put] at h1
    have hTt := hT t
    rw [put_self] at hTt
    rcases hTt with h2 | ⟨op', S', o, h, h2, h3, h4, h5⟩
    · rw [hf, ← h2, put_eq, ← hf] at h1; exact h1
    · simp only [AT.pend.injEq] at h2
      obtain ⟨rfl, rfl⟩ := h2
      subst h4
      have hc : ∀ u op S, (put a'.th t (AT.pend op0 (fun h => h = a'.f))) u = AT.pend op S → S a'.f := by
        intro u op S hu
        by_cases h : u = t
        · subst h; rw [put_self] at hu; simp only [AT.pend.injEq] at hu; rw [← hu.2]
        · rw [put_ne _ _ _ _ h] at hu
          rcases hT u with h6 | ⟨_, _, _, _, _, h6, _⟩
          · rw [hu, put_ne _ _ _ _ h] at h6; rw [hf]; exact hb.cur u op S h6.symm
          · rw [hu] at h6; cases h6
      have h6 := lin_same h1 hc t op0 _ o (put_self _ _ _) (by simp only; rw [hf]; exact h5)
      simp only [put_put, ← h3, put_eq] at h6
      exact h6
  | eff t op S o g ht hs =>
    simp only at hf hT
    have htd : a'.th t = .done o := by have := hT t; rw [put_self] at this; exact RT_done _ _ this
    -- the state before
    let x : Nat → AT K V := fun u => if u = t then .pend op S else
      if RT (b.th u) (a'.th u) then a'.th u else b.th u
    have hxR : R b ⟨b.f, x⟩ := by
      refine ⟨rfl, fun u => ?_⟩
      simp only [x]
      by_cases h : u = t
      · subst h; rw [if_pos rfl, ht]; exact Or.inl rfl
      · rw [if_neg h]
        by_cases h' : RT (b.th u) (a'.th u)
        · rw [if_pos h']; exact h'
        · rw [if_neg h']; exact Or.inl rfl
    have h0 := ih _ hxR
    have h1 := AExec.step _ _ _ _ h0 (AStep.lin ⟨b.f, x⟩ t op S o g (by simp [x]) hs)
    obtain ⟨N, hN⟩ := hb.fin
    have h2 := lin_many N h1 (by
      intro u op' S' hu
      simp only at hu ⊢
      by_cases h : u = t
      · subst h; rw [put_self] at hu; cases hu
      · rw [put_ne _ _ _ _ h] at hu
        cases hxu : x u with
        | idle => rw [hxu] at hu; cases hu
        | done o => rw [hxu] at hu; cases hu
        | pend op2 S2 => rw [hxu] at hu; simp only [AT.push, AT.pend.injEq] at hu; rw [← hu.2]; exact Or.inr rfl)
      a'.th (by
      intro u
      simp only
      by_cases h : u = t
      · subst h; rw [put_self]; exact Or.inl htd
      · rw [put_ne _ _ _ _ h]
        have hu := hT u
        rw [put_ne _ _ _ _ h] at hu
        simp only [x, if_neg h]
        cases hbu : b.th u with
        | idle =>
          rw [hbu] at hu
          have := RT_idle _ hu
          left; rw [this]; split <;> rfl
        | done o' =>
          rw [hbu] at hu
          have := RT_done _ _ hu
          left; rw [this]; split <;> rfl
        | pend op' S' =>
          rw [hbu] at hu
          simp only [AT.push] at hu
          rcases hu with hu | ⟨op2, S2, o2, h2, e1, e2, e3, e4⟩
          · rw [hu]
            left
            by_cases h' : RT (AT.pend op' S') (AT.pend op' fun h => S' h ∨ h = g)
            · rw [if_pos h']
              rcases h' with h' | ⟨_, _, _, _, _, h', _⟩
              · simp only [AT.pend.injEq, true_and] at h'
                simp only [AT.push, AT.pend.injEq, true_and]
                funext h''
                apply propext
                have := congrFun h' h''
                simp only [eq_iff_iff] at this
                constructor
                · exact Or.inl
                · rintro (h1 | h1)
                  · exact h1
                  · exact Or.inr h1
              · cases h'
            · rw [if_neg h']; rfl
          · simp only [AT.pend.injEq] at e1
            obtain ⟨rfl, rfl⟩ := e1
            rw [e2]
            by_cases h' : RT (AT.pend op' S') (AT.done o2)
            · rw [if_pos h']; left; rfl
            · rw [if_neg h']
              right
              refine ⟨op', fun h => S' h ∨ h = g, o2, rfl, rfl, ?_⟩
              rcases e3 with e3 | e3
              · exact absurd (Or.inr ⟨op', S', o2, h2, rfl, rfl, e3, e4⟩) h'
              · rw [← e3]; exact e4) (by
      intro u hu
      simp only
      by_cases h : u = t
      · subst h; rw [hN _ hu] at ht; cases ht
      · rw [put_ne _ _ _ _ h]
        have h3 := hT u
        rw [put_ne _ _ _ _ h, hN u hu] at h3
        have h4 := RT_idle _ h3
        simp only [x, if_neg h, h4, hN u hu]
        split <;> rfl)
    cases a'
    simp only at hf
    subst hf
    exact h2
  | obs t op S o h ht hS hs =>
    apply ih
    refine ⟨hf, fun u => ?_⟩
    have := hT u
    simp only at this
    by_cases hu : u = t
    · subst hu
      rw [put_self] at this
      have := RT_done _ _ this
      rw [this, ht]
      exact Or.inr ⟨op, S, o, h, rfl, rfl, hS, hs⟩
    · rw [put_ne _ _ _ _ hu] at this; exact this
  | rng t S l ht hr =>
    simp only at hf hT
    have htd : a'.th t = .done (.list l) := by have := hT t; rw [put_self] at this; exact RT_done _ _ this
    have h0 : R b { a' with th := put a'.th t (.pend .range S) } := by
      refine ⟨hf, fun u => ?_⟩
      dsimp only
      by_cases h : u = t
      · subst h; rw [put_self, ht]; exact Or.inl rfl
      · rw [put_ne _ _ _ _ h]; have := hT u; rw [put_ne _ _ _ _ h] at this; exact this
    have h1 := AExec.step _ _ _ _ (ih _ h0) (AStep.rng _ t S l (put_self _ _ _) hr)
    simp only [put_put, ← htd, put_eq] at h1
    exact h1
  | ret t o ht =>
    simp only at hf hT
    have htd : a'.th t = .idle := by have := hT t; rw [put_self] at this; exact RT_idle _ this
    have h0 : R b { a' with th := put a'.th t (.done o) } := by
      refine ⟨hf, fun u => ?_⟩
      dsimp only
      by_cases h : u = t
      · subst h; rw [put_self, ht]; exact Or.inl rfl
      · rw [put_ne _ _ _ _ h]; have := hT u; rw [put_ne _ _ _ _ h] at this; exact this
    have h1 := AExec.step _ _ _ _ (ih _ h0) (AStep.ret _ t o (put_self _ _ _))
    simp only [put_put, ← htd, put_eq] at h1
    exact h1

theorem hindsight {tr} {b : AS K V} (h : BExec tr b) : ∀ a, R b a → AExec tr a := by
  induction h with
  | init =>
    intro a hR
    have : a = ⟨fun _ => none, fun _ => .idle⟩ := by
      cases a
      obtain ⟨h1, h2⟩ := hR
      simp only at h1 h2
      subst h1
      congr
      funext t
      exact RT_idle _ (h2 t)
    rw [this]; exact AExec.init
  | step tr b l b' hb hs ih => exact fun a' hR => back_step hb.inv hs ih a' hR

/-- Every trace with hindsight is a trace of the atomic object. -/
theorem BExec.atomic {tr} {b : AS K V} (h : BExec tr b) : AExec tr b :=
  hindsight h b ⟨rfl, fun _ => Or.inl rfl⟩

end Verif.SyncMap
