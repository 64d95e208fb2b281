import Verif.Tunnel.Lemmas
set_option linter.unusedSimpArgs false
set_option linter.unusedVariables false
/-! # Every local connection ever dialled holds the bytes of exactly one task -/
namespace Verif.Tunnel
open Verif

/-- Local connection `l` is (up to having been closed) what task `i`'s own events up to some moment
made of it. -/
def HasOwner (h : List (SFrame × Env)) (l : Local) : Prop :=
  ∃ i m c, m ≤ h.length ∧ ownRun i none (h.take m) = some ⟨l.svc, l.got, c⟩

theorem HasOwner.extend {h : List (SFrame × Env)} {l : Local} (x : SFrame × Env) (ho : HasOwner h l) :
    HasOwner (h ++ [x]) l := by
  obtain ⟨i, m, c, h1, h2⟩ := ho
  refine ⟨i, m, c, by simp; omega, ?_⟩
  rw [List.take_append_of_le_length h1]; exact h2

theorem HasOwner.closed {h : List (SFrame × Env)} {l : Local} (b : Bool) (ho : HasOwner h l) :
    HasOwner h { l with closed := b } := ho

theorem ownRun_append (i : Nat) (v : Option Local) (h : List (SFrame × Env)) (x : SFrame × Env) :
    ownRun i v (h ++ [x]) = own i (ownRun i v h) x.1 x.2 := by
  simp [ownRun]

theorem step_owner (nsvc : Nat) (pre : List (SFrame × Env)) (f : SFrame) (e : Env) (s s' : CState) (hi : CInv s)
    (hv : f.Valid nsvc) (hview : ∀ i, view s i = ownRun i none pre)
    (hown : ∀ l ∈ s.locals, HasOwner pre l)
    (hs : handle e (reap e s) f.item = some s') :
    (∀ i, view s' i = ownRun i none (pre ++ [(f, e)])) ∧ ∀ l ∈ s'.locals, HasOwner (pre ++ [(f, e)]) l := by
  obtain ⟨hi', hv'⟩ := handle_spec nsvc e s s' hi f hv hs
  have hvw : ∀ i, view s' i = ownRun i none (pre ++ [(f, e)]) := by
    intro i; rw [hv' i, ownRun_append, ← hview i]
  refine ⟨hvw, ?_⟩
  have hviewOwn : ∀ i l, view s' i = some l → HasOwner (pre ++ [(f, e)]) l := by
    intro i l hl
    refine ⟨i, (pre ++ [(f, e)]).length, l.closed, Nat.le_refl _, ?_⟩
    rw [List.take_length, ← hvw i, hl]
  have hold : ∀ l ∈ s.locals, HasOwner (pre ++ [(f, e)]) l := fun l hl => (hown l hl).extend _
  -- generic argument for a `modify`
  have hmod : ∀ (id j : Nat) (g : Local → Local), (reap e s).tasks.get id = some j →
      s'.tasks = (reap e s).tasks → s'.locals = (reap e s).locals.modify j g →
      ∀ l ∈ s'.locals, HasOwner (pre ++ [(f, e)]) l := by
    intro id j g hj ht hl l hmem
    obtain ⟨k, hk⟩ := List.mem_iff_getElem?.mp hmem
    by_cases hjk : j = k
    · subst hjk
      apply hviewOwn id l
      simp only [view, ht, hj, hk]
    · rw [hl, List.getElem?_modify] at hk
      simp [hjk] at hk
      exact hold l (List.mem_iff_getElem?.mpr ⟨k, hk⟩)
  have hsame : s'.locals = s.locals → ∀ l ∈ s'.locals, HasOwner (pre ++ [(f, e)]) l := by
    intro h l hl; rw [h] at hl; exact hold l hl
  cases f with
  | ping =>
    simp only [SFrame.item, handle] at hs
    split at hs
    · simp at hs
    · simp only [Option.some.injEq] at hs; subst hs; exact hsame rfl
  | close =>
    simp only [SFrame.item, handle] at hs
    split at hs
    · simp at hs
    · split at hs
      · simp at hs
      · simp only [Option.some.injEq] at hs; subst hs; exact hsame rfl
  | ready => simp only [SFrame.item, handle, Option.some.injEq] at hs; subst hs; exact hsame rfl
  | services => simp only [SFrame.item, handle, Option.some.injEq] at hs; subst hs; exact hsame rfl
  | reconnect => exact absurd hv (by simp [SFrame.Valid])
  | info si port => simp only [SFrame.item, handle, Option.some.injEq] at hs; subst hs; exact hsame rfl
  | open_ id si p =>
    simp only [SFrame.item, handle, Option.some.injEq] at hs
    unfold handleOpen at hs
    split at hs
    · split at hs <;> (subst hs; exact hsame rfl)
    · split at hs
      · subst hs
        intro l hl
        simp only [List.mem_append, List.mem_singleton] at hl
        rcases hl with hl | hl
        · unfold closeOld at hl
          split at hl
          · rename_i j hj
            obtain ⟨k, hk⟩ := List.mem_iff_getElem?.mp hl
            rw [List.getElem?_modify] at hk
            cases hq : (reap e s).locals[k]? with
            | none => rw [hq] at hk; simp at hk
            | some q =>
              rw [hq] at hk
              have hq' := hold q (List.mem_iff_getElem?.mpr ⟨k, hq⟩)
              simp at hk
              subst hk
              split
              · exact hq'.closed true
              · exact hq'
          · exact hold l hl
        · apply hviewOwn id l
          subst hl
          simp only [view, AMap.get_set_self]
          have hlen : (closeOld (reap e s) id).length = (reap e s).locals.length := by
            unfold closeOld; split <;> simp
          rw [← hlen]; simp
      · subst hs; exact hsame rfl
  | data id p =>
    simp only [SFrame.item, handle, Option.some.injEq] at hs
    unfold handleData at hs
    split at hs
    · rename_i j hj; subst hs; exact hmod id j _ hj rfl rfl
    · split at hs <;> (subst hs; exact hsame rfl)
  | closeTask id =>
    simp only [SFrame.item, handle, Option.some.injEq] at hs
    unfold handleClose at hs
    split at hs
    · rename_i j hj; subst hs; exact hmod id j _ hj rfl rfl
    · subst hs; exact hsame rfl

theorem HasOwner.extend_list {h : List (SFrame × Env)} {l : Local} (xs : List (SFrame × Env)) (ho : HasOwner h l) :
    HasOwner (h ++ xs) l := by
  obtain ⟨i, m, c, h1, h2⟩ := ho
  refine ⟨i, m, c, by simp; omega, ?_⟩
  rw [List.take_append_of_le_length h1]; exact h2

theorem run_owner (nsvc : Nat) (hn : nsvc < 65536) (h : List (SFrame × Env)) (pre : List (SFrame × Env)) (s : CState)
    (hi : CInv s) (hv : ∀ x ∈ h, x.1.Valid nsvc) (tail : Bytes)
    (hview : ∀ i, view s i = ownRun i none pre) (hown : ∀ l ∈ s.locals, HasOwner pre l) :
    ∀ l ∈ (runC nsvc (h.map (·.2)) s (encAll (h.map (·.1)) ++ tail)).st.locals, HasOwner (pre ++ h) l := by
  induction h generalizing s pre with
  | nil => simpa [runC] using hown
  | cons x h ih =>
    obtain ⟨f, e⟩ := x
    have hvf : f.Valid nsvc := hv (f, e) (by simp)
    have henc : encAll (((f, e) :: h).map (·.1)) ++ tail = f.enc ++ (encAll (h.map (·.1)) ++ tail) := by
      simp [encAll]
    rw [henc]
    simp only [List.map_cons, runC, parseC_enc nsvc hn f hvf]
    cases hh : handle e (reap e s) f.item with
    | none =>
      intro l hl
      exact (hown l hl).extend_list _
    | some s' =>
      obtain ⟨hi', _⟩ := handle_spec nsvc e s s' hi f hvf hh
      obtain ⟨h1, h2⟩ := step_owner nsvc pre f e s s' hi hvf hview hown hh
      have := ih (pre ++ [(f, e)]) s' hi' (fun y hy => hv y (by simp [hy])) h1 h2
      simpa using this

end Verif.Tunnel
