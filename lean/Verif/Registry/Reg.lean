import Verif.Registry.Model
set_option linter.unusedSimpArgs false
set_option linter.unusedVariables false
/-! Pointwise facts about the registry operations. -/
namespace Verif.Registry
open Verif

theorem nodup_tail {p : String} {o : Opt} {r : AMap String Opt} (h : AMap.keys ((p, o) :: r) |>.Nodup) :
    AMap.get r p = none ∧ (AMap.keys r).Nodup := by
  simp only [AMap.keys, List.map_cons, List.nodup_cons] at h
  exact ⟨(AMap.get_eq_none_iff r p).mpr h.1, h.2⟩

theorem removeAll_get (ids : AMap String Opt) (reg : AMap (String × Bool) (Nat × Nat)) (hn : ids.keys.Nodup)
    (p : String) (b : Bool) :
    (removeAll ids reg).get (p, b) =
      match ids.get p with
      | some o => if o.tls = b then none else reg.get (p, b)
      | none => reg.get (p, b) := by
  induction ids generalizing reg with
  | nil => rfl
  | cons e r ih =>
    obtain ⟨p', o'⟩ := e
    obtain ⟨h1, h2⟩ := nodup_tail hn
    simp only [removeAll]
    rw [ih _ h2, AMap.get_del]
    simp only [AMap.get]
    by_cases hp : p' = p
    · subst hp
      simp only [h1, if_true, Prod.mk.injEq, true_and]
    · simp only [hp, if_false, Prod.mk.injEq, false_and]

theorem prune_get (cid : Nat) (new ids : AMap String Opt) (reg : AMap (String × Bool) (Nat × Nat))
    (hn : ids.keys.Nodup) (p : String) (b : Bool) :
    (prune cid new ids reg).get (p, b) =
      match ids.get p with
      | some oo =>
        if oo.tls = b then
          match new.get p with
          | none => none
          | some o => if o.tls = b then (if oo.idx = o.idx then reg.get (p, b) else some (cid, o.idx)) else none
        else reg.get (p, b)
      | none => reg.get (p, b) := by
  induction ids generalizing reg with
  | nil => rfl
  | cons e r ih =>
    obtain ⟨p', o'⟩ := e
    obtain ⟨h1, h2⟩ := nodup_tail hn
    simp only [prune]
    rw [ih _ h2]
    simp only [AMap.get]
    by_cases hp : p' = p
    · subst hp
      simp only [h1, if_true]
      cases hnew : new.get p' with
      | none =>
        simp only [AMap.get_del, Prod.mk.injEq, true_and]
      | some o =>
        simp only
        by_cases hb : o'.tls = b
        · subst hb
          simp only [if_true]
          by_cases ht : o'.tls = o.tls
          · rw [if_neg (by simp [ht])]
            rw [if_pos ht.symm]
            by_cases hi : o'.idx = o.idx
            · rw [if_neg (by simp [hi]), if_pos hi]
            · rw [if_pos hi, if_neg hi]; simp
          · rw [if_pos ht]
            rw [if_neg (fun h => ht h.symm)]; simp
        · simp only [hb, if_false]
          split
          · rw [AMap.get_del, if_neg]; simp [hb]
          · split
            · rw [AMap.get_set_ne]; simp [hb]
            · rfl
    · simp only [hp, if_false]
      have hne : ∀ b', (p', b') ≠ (p, b) := by intro b' h; simp at h; exact hp h.1
      have : ∀ reg' : AMap (String × Bool) (Nat × Nat), reg'.get (p, b) = reg.get (p, b) →
          (match AMap.get r p with
            | some oo => if oo.tls = b then
                match new.get p with
                | none => none
                | some o => if o.tls = b then (if oo.idx = o.idx then reg'.get (p, b) else some (cid, o.idx)) else none
              else reg'.get (p, b)
            | none => reg'.get (p, b)) =
          (match AMap.get r p with
            | some oo => if oo.tls = b then
                match new.get p with
                | none => none
                | some o => if o.tls = b then (if oo.idx = o.idx then reg.get (p, b) else some (cid, o.idx)) else none
              else reg.get (p, b)
            | none => reg.get (p, b)) := by intro reg' h; rw [h]
      apply this
      split
      · rw [AMap.get_del, if_neg (hne _)]
      · split
        · rw [AMap.get_del, if_neg (hne _)]
        · split
          · rw [AMap.get_set_ne _ _ (hne _)]
          · rfl

theorem foldl_del_get (rb : List (String × Bool)) (reg : AMap (String × Bool) (Nat × Nat)) (k : String × Bool) :
    (rb.foldl (fun m k => m.del k) reg).get k = if k ∈ rb then none else reg.get k := by
  induction rb generalizing reg with
  | nil => simp
  | cons a rb ih =>
    simp only [List.foldl_cons]
    rw [ih, AMap.get_del]
    by_cases h : k ∈ rb
    · simp [h]
    · by_cases h' : a = k
      · simp [h']
      · simp [h, h', Ne.symm h']

/-- Registration that fails restores the registry; one that succeeds adds exactly the missing entries. -/
theorem regAdd_get (cid : Nat) (ids : AMap String Opt) (reg0 reg : AMap (String × Bool) (Nat × Nat))
    (rb : List (String × Bool)) (hn : ids.keys.Nodup)
    (hrb : ∀ k, (k ∈ rb → reg0.get k = none) ∧ (k ∉ rb → reg.get k = reg0.get k)) :
    ((regAdd cid ids reg rb).2 = false → ∀ k, (regAdd cid ids reg rb).1.get k = reg0.get k) ∧
    ((regAdd cid ids reg rb).2 = true → ∀ p b, (regAdd cid ids reg rb).1.get (p, b) =
      match ids.get p with
      | some o =>
        if o.tls = b then
          match reg.get (p, b) with
          | some x => some x
          | none => some (cid, o.idx)
        else reg.get (p, b)
      | none => reg.get (p, b)) ∧
    ((regAdd cid ids reg rb).2 = true → ∀ p o c i, ids.get p = some o → reg.get (p, o.tls) = some (c, i) → c = cid) := by
  induction ids generalizing reg rb with
  | nil => simp [regAdd]
  | cons e r ih =>
    obtain ⟨p', o'⟩ := e
    obtain ⟨h1, h2⟩ := nodup_tail hn
    simp only [regAdd]
    cases hg : reg.get (p', o'.tls) with
    | some x =>
      obtain ⟨c, i⟩ := x
      simp only
      by_cases hc : c = cid
      · rw [if_pos hc]
        obtain ⟨a1, a2, a3⟩ := ih reg rb h2 hrb
        refine ⟨a1, fun hok p b => ?_, fun hok p o c' i' hp hr => ?_⟩
        · rw [a2 hok p b]
          simp only [AMap.get]
          by_cases hpp : p' = p
          · subst hpp
            simp only [h1, if_true]
            by_cases hb : o'.tls = b
            · subst hb; simp [hg]
            · simp [hb]
          · simp only [hpp, if_false]
        · simp only [AMap.get] at hp
          by_cases hpp : p' = p
          · subst hpp
            simp only [if_true, Option.some.injEq] at hp; subst hp
            rw [hg] at hr; simp at hr; rw [← hr.1]; exact hc
          · simp only [hpp, if_false] at hp
            exact a3 hok p o c' i' hp hr
      · rw [if_neg hc]
        refine ⟨fun _ k => ?_, by simp, by simp⟩
        simp only [foldl_del_get]
        split
        · rename_i hk; rw [(hrb k).1 hk]
        · rename_i hk; exact (hrb k).2 hk
    | none =>
      simp only
      have hrb' : ∀ k, (k ∈ (p', o'.tls) :: rb → reg0.get k = none) ∧
          (k ∉ (p', o'.tls) :: rb → (reg.set (p', o'.tls) (cid, o'.idx)).get k = reg0.get k) := by
        intro k
        constructor
        · intro hk
          simp only [List.mem_cons] at hk
          rcases hk with rfl | hk
          · by_cases hm : (p', o'.tls) ∈ rb
            · exact (hrb _).1 hm
            · rw [← (hrb _).2 hm]; exact hg
          · exact (hrb k).1 hk
        · intro hk
          simp only [List.mem_cons, not_or] at hk
          rw [AMap.get_set_ne _ _ (Ne.symm hk.1)]
          exact (hrb k).2 hk.2
      obtain ⟨a1, a2, a3⟩ := ih (reg.set (p', o'.tls) (cid, o'.idx)) ((p', o'.tls) :: rb) h2 hrb'
      refine ⟨a1, fun hok p b => ?_, fun hok p o c' i' hp hr => ?_⟩
      · rw [a2 hok p b]
        simp only [AMap.get]
        by_cases hpp : p' = p
        · subst hpp
          simp only [h1, if_true]
          by_cases hb : o'.tls = b
          · subst hb; simp [hg]
          · simp only [hb, if_false]
            rw [AMap.get_set_ne]; simp [hb]
        · have hne : (p', o'.tls) ≠ (p, b) := by simp [hpp]
          simp only [hpp, if_false, AMap.get_set_ne _ _ hne]
      · simp only [AMap.get] at hp
        by_cases hpp : p' = p
        · subst hpp
          simp only [if_true, Option.some.injEq] at hp; subst hp
          rw [hg] at hr; simp at hr
        · simp only [hpp, if_false] at hp
          have hne : (p', o'.tls) ≠ (p, o.tls) := by simp [hpp]
          exact a3 hok p o c' i' hp (by rw [AMap.get_set_ne _ _ hne]; exact hr)

end Verif.Registry
