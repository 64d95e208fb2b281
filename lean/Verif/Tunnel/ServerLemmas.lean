import Verif.Tunnel.Server
import Verif.Tunnel.Lemmas
set_option linter.unusedSimpArgs false
set_option linter.unusedVariables false
namespace Verif.Tunnel
open Verif

def CFrame.item : CFrame → SItem
  | .ping => .ping
  | .close => .close
  | .data id p => .data id p
  | .closeTask id => .closeTask id

theorem parseS_enc (f : CFrame) (hv : f.Valid) (rest : Bytes) :
    parseS (f.enc ++ rest) = some (f.item, rest) := by
  cases f with
  | ping => simp only [parseS, CFrame.enc, u32?_be32 (n := sigPing) (by decide)]; simp [CFrame.item]
  | close =>
    simp only [parseS, CFrame.enc, u32?_be32 (n := sigClose) (by decide)]
    simp [CFrame.item, sigClose, sigPing]
  | data id p =>
    obtain ⟨h1, h4⟩ := hv
    have hid : id < 4294967296 := by unfold preserved at h1; omega
    unfold preserved at h1
    simp only [parseS, CFrame.enc, List.append_assoc, u32?_be32 hid]
    rw [if_neg (by unfold sigPing; omega), if_neg (by unfold sigClose; omega),
      if_neg (by unfold sigServices; omega)]
    simp only [u16?_be16 (n := opData) (by decide)]
    simp only [if_true, u32?_be32 h4, body?_append, CFrame.item]
  | closeTask id =>
    have h1 : id < preserved := hv
    have hid : id < 4294967296 := by unfold preserved at h1; omega
    unfold preserved at h1
    simp only [parseS, CFrame.enc, List.append_assoc, u32?_be32 hid]
    rw [if_neg (by unfold sigPing; omega), if_neg (by unfold sigClose; omega),
      if_neg (by unfold sigServices; omega)]
    simp only [u16?_be16 (n := opClose) (by decide)]
    simp [opData, opClose, CFrame.item]

structure SInv (s : SState) : Prop where
  bound : ∀ i j, s.tasks.get i = some j → j < s.pubs.length
  inj : ∀ i i' j, s.tasks.get i = some j → s.tasks.get i' = some j → i = i'

theorem SInv.init : SInv SState.init := ⟨by simp [SState.init], by simp [SState.init]⟩

theorem act_spec (s : SState) (h : SInv s) (a : Act) :
    SInv (act s a) ∧ ∀ i, viewS (act s a) i = actOwn i (viewS s i) a := by
  cases a with
  | add id =>
    refine ⟨⟨?_, ?_⟩, ?_⟩
    · intro i j hj
      simp only [act, AMap.get_set] at hj
      simp only [act, List.length_append, List.length_cons, List.length_nil]
      split at hj
      · simp at hj; omega
      · have := h.bound i j hj; omega
    · intro i i' j h1 h2
      simp only [act, AMap.get_set] at h1 h2
      split at h1
      · rename_i hh; subst hh; simp at h1; subst h1
        split at h2
        · assumption
        · have := h.bound _ _ h2; omega
      · split at h2
        · simp at h2; subst h2
          have := h.bound _ _ h1; omega
        · exact h.inj _ _ _ h1 h2
    · intro i
      simp only [viewS, act, AMap.get_set, actOwn]
      by_cases hi : id = i
      · simp [hi]
      · simp only [hi, if_false]
        cases hj : s.tasks.get i with
        | none => rfl
        | some j =>
          have hb := h.bound i j hj
          simp only
          rw [List.getElem?_append_left (by omega)]
  | remove id =>
    refine ⟨⟨?_, ?_⟩, ?_⟩
    · intro i j hj
      simp only [act, AMap.get_del] at hj
      split at hj
      · simp at hj
      · exact h.bound i j hj
    · intro i i' j h1 h2
      simp only [act, AMap.get_del] at h1 h2
      split at h1
      · simp at h1
      · split at h2
        · simp at h2
        · exact h.inj _ _ _ h1 h2
    · intro i
      simp only [viewS, act, AMap.get_del, actOwn]
      by_cases hi : id = i
      · simp [hi]
      · simp only [hi, if_false]

theorem acts_spec (l : List Act) (s : SState) (h : SInv s) :
    SInv (l.foldl act s) ∧ ∀ i, viewS (l.foldl act s) i = l.foldl (actOwn i) (viewS s i) := by
  induction l generalizing s with
  | nil => exact ⟨h, fun i => rfl⟩
  | cons a l ih =>
    obtain ⟨h1, h2⟩ := act_spec s h a
    obtain ⟨h3, h4⟩ := ih _ h1
    refine ⟨h3, fun i => ?_⟩
    simp only [List.foldl_cons]
    rw [h4 i, h2 i]

theorem acts_isClosing (e : SEnv) (s : SState) : (acts e s).isClosing = s.isClosing := by
  unfold acts
  generalize e.acts = l
  induction l generalizing s with
  | nil => rfl
  | cons a l ih => simp only [List.foldl_cons]; rw [ih]; cases a <;> rfl

theorem viewS_modify (s : SState) (h : SInv s) (id : Nat) (j : Nat) (hj : s.tasks.get id = some j)
    (f : Pub → Pub) (i : Nat) :
    viewS { s with pubs := s.pubs.modify j f } i = if id = i then (viewS s i).map f else viewS s i := by
  simp only [viewS]
  cases hi : s.tasks.get i with
  | none =>
    simp only
    split
    · rename_i h; subst h; rw [hj] at hi; simp at hi
    · rfl
  | some k =>
    simp only [List.getElem?_modify]
    by_cases hk : j = k
    · subst hk
      have := h.inj _ _ _ hj hi
      simp [this]
    · have : id ≠ i := by rintro rfl; rw [hj] at hi; simp at hi; exact hk hi
      simp [this, hk]

theorem SInv.modify {s : SState} (h : SInv s) (j : Nat) (f : Pub → Pub) :
    SInv { s with pubs := s.pubs.modify j f } :=
  ⟨fun i k hk => by simpa using h.bound i k hk, h.inj⟩

theorem handleS_spec (dl : Bool) (e : SEnv) (s s' : SState) (h : SInv s) (f : CFrame)
    (hs : handleS dl e (acts e s) f.item = .next s') :
    SInv s' ∧ ∀ i, viewS s' i = ownS i (viewS s i) f e := by
  obtain ⟨hr, hview⟩ := acts_spec e.acts s h
  change SInv (acts e s) at hr
  change ∀ i, viewS (acts e s) i = _ at hview
  cases f with
  | ping =>
    simp only [CFrame.item, handleS] at hs
    split at hs
    · simp at hs; subst hs; exact ⟨hr, hview⟩
    · simp at hs
  | close =>
    simp only [CFrame.item, handleS] at hs
    split at hs
    · simp at hs
    · simp at hs; subst hs; exact ⟨⟨hr.bound, hr.inj⟩, hview⟩
  | data id p =>
    simp only [CFrame.item, handleS] at hs
    cases hj : (acts e s).tasks.get id with
    | none =>
      have hs' : s' = acts e s := by
        rw [hj] at hs
        simp only at hs
        split at hs
        · simpa using hs.symm
        · split at hs
          · simp at hs
          · simpa using hs.symm
      subst hs'
      refine ⟨hr, fun i => ?_⟩
      have hv := hview i
      simp only [ownS]
      rw [← hv]
      split
      · rename_i hh; subst hh; simp [viewS, hj]
      · rfl
    | some j =>
      rw [hj] at hs
      simp at hs; subst hs
      refine ⟨hr.modify _ _, fun i => ?_⟩
      rw [viewS_modify _ hr id j hj, hview i]
      rfl
  | closeTask id =>
    simp only [CFrame.item, handleS] at hs
    cases hj : (acts e s).tasks.get id with
    | none =>
      rw [hj] at hs
      simp at hs; subst hs
      refine ⟨hr, fun i => ?_⟩
      have hv := hview i
      simp only [ownS]
      rw [← hv]
      split
      · rename_i hh; subst hh; simp [viewS, hj]
      · rfl
    | some j =>
      rw [hj] at hs
      simp at hs; subst hs
      refine ⟨hr.modify _ _, fun i => ?_⟩
      rw [viewS_modify _ hr id j hj, hview i]
      rfl

theorem handleS_isClosing (dl : Bool) (e : SEnv) (s s' : SState) (f : CFrame)
    (hs : handleS dl e s f.item = .next s') : s'.isClosing = (s.isClosing || decide (f = .close)) := by
  cases f with
  | ping =>
    simp only [CFrame.item, handleS] at hs
    split at hs
    · simp at hs; simp [hs]
    · simp at hs
  | close =>
    simp only [CFrame.item, handleS] at hs
    split at hs
    · simp at hs
    · simp at hs; simp [← hs]
  | data id p =>
    simp only [CFrame.item, handleS] at hs
    split at hs
    · split at hs
      · simp at hs; simp [hs]
      · split at hs
        · simp at hs
        · simp at hs; simp [hs]
    · simp at hs; simp [← hs]
  | closeTask id =>
    simp only [CFrame.item, handleS] at hs
    split at hs <;> (simp at hs; simp [← hs])

theorem actOwn_irrelevant (i : Nat) (l : List Act) (v : Option Pub) (h : l.any (Act.isOf i) = false) :
    l.foldl (actOwn i) v = v := by
  induction l generalizing v with
  | nil => rfl
  | cons a l ih =>
    simp only [List.any_cons, Bool.or_eq_false_iff] at h
    simp only [List.foldl_cons]
    have : actOwn i v a = v := by cases a <;> simp_all [actOwn, Act.isOf]
    rw [this]; exact ih v h.2

theorem ownS_irrelevant (i : Nat) (v : Option Pub) (f : CFrame) (e : SEnv) (h : concernsS i (f, e) = false) :
    ownS i v f e = v := by
  simp only [concernsS, Bool.or_eq_false_iff] at h
  unfold ownS
  rw [actOwn_irrelevant i e.acts v h.2]
  have h1 := h.1
  cases f <;> simp_all [CFrame.isOf]

theorem ownRunS_filter (i : Nat) (v : Option Pub) (h : List (CFrame × SEnv)) :
    ownRunS i v h = ownRunS i v (h.filter (concernsS i)) := by
  induction h generalizing v with
  | nil => rfl
  | cons x h ih =>
    cases hc : concernsS i x
    · rw [List.filter_cons_of_neg (by simp [hc])]
      rw [← ih]
      simp only [ownRunS, List.foldl_cons]
      rw [ownS_irrelevant i v x.1 x.2 hc]
    · rw [List.filter_cons_of_pos hc]
      simp only [ownRunS, List.foldl_cons]
      exact ih _

theorem runS_spec (dl : Bool) (h : List (CFrame × SEnv)) (s : SState) (hi : SInv s)
    (hv : ∀ x ∈ h, x.1.Valid) (tail : Bytes) (R : SRes)
    (hR : runS dl (h.map (·.2)) s (encAllC (h.map (·.1)) ++ tail) = R) :
    (R.fin = .running ∧ R.rest = tail ∧ ∀ i, viewS R.st i = ownRunS i (viewS s i) h) ∨
    (∃ k x, h[k]? = some x ∧
      (∀ i, viewS R.st i = x.2.acts.foldl (actOwn i) (ownRunS i (viewS s i) (h.take k))) ∧
      ((R.fin = .stopped ∧ ((x.1 = .ping ∧ x.2.pingOk = false) ∨
          (x.1 = .close ∧ (s.isClosing = true ∨ ∃ y ∈ h.take k, y.1 = .close)))) ∨
       (R.fin = .panic ∧ dl = true ∧ ∃ id, x.1 = .data id [] ∧ viewS R.st id = none))) := by
  induction h generalizing s with
  | nil => subst hR; exact Or.inl ⟨rfl, rfl, fun i => rfl⟩
  | cons x h ih =>
    obtain ⟨f, e⟩ := x
    have hvf : f.Valid := hv (f, e) (by simp)
    have henc : encAllC (((f, e) :: h).map (·.1)) ++ tail = f.enc ++ (encAllC (h.map (·.1)) ++ tail) := by
      simp [encAllC]
    rw [henc] at hR
    simp only [List.map_cons, runS, parseS_enc f hvf] at hR
    obtain ⟨hr, hview⟩ := acts_spec e.acts s hi
    change SInv (acts e s) at hr
    change ∀ i, viewS (acts e s) i = _ at hview
    cases hh : handleS dl e (acts e s) f.item with
    | next s' =>
      rw [hh] at hR
      obtain ⟨hi', hview'⟩ := handleS_spec dl e s s' hi f hh
      have hcl := handleS_isClosing dl e _ s' f hh
      rcases ih s' hi' (fun y hy => hv y (by simp [hy])) hR with ⟨a, b, d⟩ | ⟨k, x, hx, hw, hd⟩
      · refine Or.inl ⟨a, b, fun i => ?_⟩
        rw [d i, hview' i]; rfl
      · refine Or.inr ⟨k + 1, x, by simpa using hx, ?_, ?_⟩
        · intro i
          rw [hw i, hview' i]
          rfl
        · rcases hd with ⟨hf, hd⟩ | hd
          · refine Or.inl ⟨hf, ?_⟩
            rcases hd with hd | ⟨hp, hd⟩
            · exact Or.inl hd
            · refine Or.inr ⟨hp, ?_⟩
              rcases hd with hd | ⟨y, hy, hyc⟩
              · rw [hcl, acts_isClosing] at hd
                simp only [Bool.or_eq_true, decide_eq_true_eq] at hd
                rcases hd with hd | hd
                · exact Or.inl hd
                · exact Or.inr ⟨(f, e), by simp, hd⟩
              · exact Or.inr ⟨y, by simp [hy], hyc⟩
          · exact Or.inr hd
    | stop =>
      rw [hh] at hR
      subst hR
      refine Or.inr ⟨0, (f, e), by simp, fun i => hview i, Or.inl ⟨rfl, ?_⟩⟩
      cases f with
      | ping => left; simp [CFrame.item, handleS] at hh; exact ⟨rfl, hh⟩
      | close => right; simp [CFrame.item, handleS, acts_isClosing] at hh; exact ⟨rfl, Or.inl hh⟩
      | data id p => simp only [CFrame.item, handleS] at hh; split at hh <;> (try split at hh) <;> (try split at hh) <;> simp at hh
      | closeTask id => simp only [CFrame.item, handleS] at hh; split at hh <;> simp at hh
    | reload =>
      cases f with
      | ping => simp only [CFrame.item, handleS] at hh; split at hh <;> simp at hh
      | close => simp only [CFrame.item, handleS] at hh; split at hh <;> simp at hh
      | data id p => simp only [CFrame.item, handleS] at hh; split at hh <;> (try split at hh) <;> (try split at hh) <;> simp at hh
      | closeTask id => simp only [CFrame.item, handleS] at hh; split at hh <;> simp at hh
    | panic =>
      rw [hh] at hR
      subst hR
      refine Or.inr ⟨0, (f, e), by simp, fun i => hview i, Or.inr ⟨rfl, ?_⟩⟩
      cases f with
      | ping => simp only [CFrame.item, handleS] at hh; split at hh <;> simp at hh
      | close => simp only [CFrame.item, handleS] at hh; split at hh <;> simp at hh
      | data id p =>
        simp only [CFrame.item, handleS] at hh
        split at hh
        · rename_i hn
          split at hh
          · simp at hh
          · rename_i hp
            split at hh
            · rename_i hdl
              have : p = [] := List.length_eq_zero_iff.mp (by omega)
              exact ⟨hdl, id, by rw [this], by simp [viewS, hn]⟩
            · simp at hh
        · simp at hh
      | closeTask id => simp only [CFrame.item, handleS] at hh; split at hh <;> simp at hh

end Verif.Tunnel
