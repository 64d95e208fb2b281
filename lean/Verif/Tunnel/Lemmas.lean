import Verif.Tunnel.Spec
set_option linter.unusedSimpArgs false
set_option linter.unusedVariables false
/-! # Lemmas for the tunnel model -/
namespace Verif.Tunnel
open Verif

theorem be32_rd32 (a b c d : UInt8) : be32 (rd32 a b c d) = [a, b, c, d] := by
  have ha := u8_lt a; have hb := u8_lt b; have hc := u8_lt c; have hd := u8_lt d
  have e1 : rd32 a b c d / 16777216 = a.toNat := by simp only [rd32]; omega
  have e2 : rd32 a b c d / 65536 % 256 = b.toNat := by simp only [rd32]; omega
  have e3 : rd32 a b c d / 256 % 256 = c.toNat := by simp only [rd32]; omega
  have e4 : rd32 a b c d % 256 = d.toNat := by simp only [rd32]; omega
  have h1 : UInt8.ofNat (rd32 a b c d / 16777216) = a := u8_eq_of_toNat (by
    rw [e1]; simp)
  have h2 : UInt8.ofNat (rd32 a b c d / 65536) = b := u8_eq_of_toNat (by
    rw [← e2]; simp)
  have h3 : UInt8.ofNat (rd32 a b c d / 256) = c := u8_eq_of_toNat (by
    rw [← e3]; simp)
  have h4 : UInt8.ofNat (rd32 a b c d) = d := u8_eq_of_toNat (by
    rw [← e4]; simp)
  simp only [be32, h1, h2, h3, h4]

theorem be16_rd16 (a b : UInt8) : be16 (rd16 a b) = [a, b] := by
  have ha := u8_lt a; have hb := u8_lt b
  have e1 : rd16 a b / 256 = a.toNat := by simp only [rd16]; omega
  have e2 : rd16 a b % 256 = b.toNat := by simp only [rd16]; omega
  have h1 : UInt8.ofNat (rd16 a b / 256) = a := u8_eq_of_toNat (by rw [e1]; simp)
  have h2 : UInt8.ofNat (rd16 a b) = b := u8_eq_of_toNat (by rw [← e2]; simp)
  simp only [be16, h1, h2]

theorem u16?_some {x r : Bytes} {v : Nat} (h : u16? x = some (v, r)) : x = be16 v ++ r := by
  match x, h with
  | a :: b :: r', h =>
    simp only [u16?, Option.some.injEq, Prod.mk.injEq] at h
    rw [← h.1, ← h.2, be16_rd16]; rfl

theorem u32?_some {x r : Bytes} {v : Nat} (h : u32? x = some (v, r)) : x = be32 v ++ r := by
  match x, h with
  | a :: b :: c :: d :: r', h =>
    simp only [u32?, Option.some.injEq, Prod.mk.injEq] at h
    rw [← h.1, ← h.2, be32_rd32]; rfl

theorem body?_some {l : Nat} {x p r : Bytes} (h : body? l x = some (p, r)) : x = p ++ r ∧ p.length = l := by
  simp only [body?] at h
  split at h
  · simp only [Option.some.injEq, Prod.mk.injEq] at h
    rw [← h.1, ← h.2]; simp; omega
  · simp at h

theorem u16?_be16 {n : Nat} (h : n < 65536) (rest : Bytes) : u16? (be16 n ++ rest) = some (n, rest) := by
  simp only [be16, List.cons_append, List.nil_append, u16?, rd16_be16 h]

theorem u32?_be32 {n : Nat} (h : n < 4294967296) (rest : Bytes) :
    u32? (be32 n ++ rest) = some (n, rest) := by
  simp only [be32, List.cons_append, List.nil_append, u32?, rd32_be32 h]

theorem body?_append (p rest : Bytes) : body? p.length (p ++ rest) = some (p, rest) := by
  simp [body?]

theorem isP2P?_append (p rest : Bytes) (h : p.length ≠ 1) :
    isP2P? p.length (p ++ rest) = some (isXP p) := by
  match p, h with
  | [], _ => simp [isP2P?, isXP]
  | [a], h => simp at h
  | a :: b :: r, _ =>
    have ha := u8_lt a
    have hb := u8_lt b
    have hl : ¬ (a :: b :: r).length = 0 := by simp
    simp only [isP2P?, hl, if_false, List.cons_append, u16?, isXP, List.take_succ_cons,
      List.take_zero, rd16, Option.some.injEq]
    rw [Bool.eq_iff_iff]
    simp only [beq_iff_eq, List.cons.injEq, and_true]
    constructor
    · intro h
      constructor
      · apply u8_eq_of_toNat; show a.toNat = 0x58; omega
      · apply u8_eq_of_toNat; show b.toNat = 0x50; omega
    · rintro ⟨rfl, rfl⟩; rfl

/-- The loop item that a frame stands for. -/
def SFrame.item : SFrame → CItem
  | .ping => .ping
  | .close => .close
  | .ready => .ready
  | .services => .services
  | .reconnect => .other sigReconnect 0
  | .info _ _ => .info
  | .open_ id si p => .open_ id si p (isXP p)
  | .data id p => .data id p
  | .closeTask id => .closeTask id

theorem parseC_enc (nsvc : Nat) (hn : nsvc < 65536) (f : SFrame) (hv : f.Valid nsvc) (rest : Bytes) :
    parseC nsvc (f.enc ++ rest) = some (f.item, rest) := by
  cases f with
  | ping =>
    simp only [parseC, SFrame.enc, u32?_be32 (n := sigPing) (by decide)]; simp [SFrame.item]
  | close =>
    simp only [parseC, SFrame.enc, u32?_be32 (n := sigClose) (by decide)]
    simp [SFrame.item, sigClose, sigPing]
  | ready =>
    simp only [parseC, SFrame.enc, u32?_be32 (n := sigReady) (by decide)]
    simp [SFrame.item, sigClose, sigPing, sigReady]
  | services =>
    simp only [parseC, SFrame.enc, u32?_be32 (n := sigServices) (by decide)]
    simp [SFrame.item, sigClose, sigPing, sigReady, sigServices]
  | reconnect => exact absurd hv (by simp [SFrame.Valid])
  | info si port =>
    obtain ⟨h1, h2⟩ := hv
    simp only [parseC, SFrame.enc, List.append_assoc, u32?_be32 (n := sigInfo) (by decide)]
    have hx : u32? (be16 si ++ (be16 port ++ rest)) = some (rd32 (UInt8.ofNat (si / 256)) (UInt8.ofNat si)
      (UInt8.ofNat (port / 256)) (UInt8.ofNat port), rest) := rfl
    simp [SFrame.item, sigClose, sigPing, sigReady, sigServices, sigInfo, sigError,
      u16?_be16 (n := 1) (by decide), hx]
  | open_ id si p =>
    obtain ⟨h1, h2, h3, h4, h5⟩ := hv
    have hid : id < 4294967296 := by unfold preserved at h1; omega
    unfold preserved at h1
    simp only [parseC, SFrame.enc, List.append_assoc, u32?_be32 hid]
    rw [if_neg (by unfold sigPing; omega), if_neg (by unfold sigClose; omega),
      if_neg (by unfold sigReady; omega), if_neg (by unfold sigServices; omega),
      if_neg (by unfold sigError; omega), if_neg (by unfold sigInfo; omega)]
    simp only [parseTask, u16?_be16 (n := opServicesData) (by decide), if_true, u16?_be16 h3]
    rw [if_neg (by omega)]
    simp only [u32?_be32 h4, isP2P?_append p rest h5, body?_append, SFrame.item]
  | data id p =>
    obtain ⟨h1, h4⟩ := hv
    have hid : id < 4294967296 := by unfold preserved at h1; omega
    unfold preserved at h1
    simp only [parseC, SFrame.enc, List.append_assoc, u32?_be32 hid]
    rw [if_neg (by unfold sigPing; omega), if_neg (by unfold sigClose; omega),
      if_neg (by unfold sigReady; omega), if_neg (by unfold sigServices; omega),
      if_neg (by unfold sigError; omega), if_neg (by unfold sigInfo; omega)]
    simp only [parseTask, u16?_be16 (n := opData) (by decide)]
    simp only [opData, opServicesData, if_true, u32?_be32 h4, body?_append, SFrame.item]
    simp
  | closeTask id =>
    have h1 : id < preserved := hv
    have hid : id < 4294967296 := by unfold preserved at h1; omega
    unfold preserved at h1
    simp only [parseC, SFrame.enc, List.append_assoc, u32?_be32 hid]
    rw [if_neg (by unfold sigPing; omega), if_neg (by unfold sigClose; omega),
      if_neg (by unfold sigReady; omega), if_neg (by unfold sigServices; omega),
      if_neg (by unfold sigError; omega), if_neg (by unfold sigInfo; omega)]
    simp only [parseTask, u16?_be16 (n := opClose) (by decide)]
    simp [opData, opServicesData, opClose, SFrame.item]

/-! ## Invariant of the client state -/

/-- Every task points to a dialled connection, and no two ids to the same one. -/
structure CInv (s : CState) : Prop where
  bound : ∀ i j, s.tasks.get i = some j → j < s.locals.length
  inj : ∀ i i' j, s.tasks.get i = some j → s.tasks.get i' = some j → i = i'

theorem CInv.init : CInv CState.init := ⟨by simp [CState.init], by simp [CState.init]⟩

theorem get_foldl_del (m : AMap Nat Nat) (ks : List Nat) (i : Nat) :
    (ks.foldl AMap.del m).get i = if i ∈ ks then none else m.get i := by
  induction ks generalizing m with
  | nil => simp
  | cons k ks ih =>
    simp only [List.foldl_cons, ih, AMap.get_del, List.mem_cons]
    by_cases h : i ∈ ks
    · simp [h]
    · by_cases hk : k = i
      · simp [hk]
      · simp [h, hk, Ne.symm hk]

theorem reap_tasks (e : Env) (s : CState) (i : Nat) :
    (reap e s).tasks.get i = if i ∈ e.ended then none else s.tasks.get i := by
  simp only [reap, get_foldl_del]

theorem CInv.reap {s : CState} (h : CInv s) (e : Env) : CInv (reap e s) := by
  constructor
  · intro i j hj
    rw [reap_tasks] at hj
    split at hj
    · simp at hj
    · exact h.bound i j hj
  · intro i i' j h1 h2
    rw [reap_tasks] at h1 h2
    split at h1
    · simp at h1
    · split at h2
      · simp at h2
      · exact h.inj i i' j h1 h2

theorem view_reap (e : Env) (s : CState) (i : Nat) :
    view (reap e s) i = if i ∈ e.ended then none else view s i := by
  simp only [view, reap_tasks]
  by_cases h : i ∈ e.ended
  · simp [h]
  · simp [h, reap]

theorem view_modify (s : CState) (h : CInv s) (id : Nat) (j : Nat) (hj : s.tasks.get id = some j)
    (f : Local → Local) (i : Nat) :
    view { s with locals := s.locals.modify j f } i = if id = i then (view s i).map f else view s i := by
  simp only [view]
  cases hi : s.tasks.get i with
  | none =>
    simp only
    split
    · rename_i h; subst h; rw [hj] at hi; simp at hi
    · rfl
  | some k =>
    simp only [List.getElem?_modify]
    by_cases hk : j = k
    · subst hk
      have := h.inj _ _ _ hj hi
      simp [this]
    · have : id ≠ i := by rintro rfl; rw [hj] at hi; simp at hi; exact hk hi
      simp [this, hk]

theorem CInv.modify {s : CState} (h : CInv s) (j : Nat) (f : Local → Local) :
    CInv { s with locals := s.locals.modify j f } :=
  ⟨fun i k hk => by simpa using h.bound i k hk, h.inj⟩

theorem handleOpen_spec (e : Env) (s : CState) (h : CInv s) (id si : Nat) (p : Bytes) (x : Bool) :
    CInv (handleOpen e s id si p x) ∧
    ∀ i, view (handleOpen e s id si p x) i =
      if id = i ∧ x = false ∧ e.dialOk = true then some ⟨si, e.take p, false⟩ else view s i := by
  unfold handleOpen
  cases x
  · simp only [Bool.false_eq_true, if_false]
    cases hd : e.dialOk
    · simp only [Bool.false_eq_true, if_false]; exact ⟨h, fun i => by simp⟩
    · simp only [if_true]
      generalize hl : closeOld s id = ls
      have hlen : ls.length = s.locals.length := by
        subst hl; unfold closeOld; split <;> simp
      have hother : ∀ i j, i ≠ id → s.tasks.get i = some j → ls[j]? = s.locals[j]? := by
        intro i j hi hj
        subst hl
        unfold closeOld
        split
        · rename_i k hk
          have hne : k ≠ j := by rintro rfl; exact hi (h.inj _ _ _ hj hk)
          rw [List.getElem?_modify]; simp [hne]
        · rfl
      refine ⟨⟨?_, ?_⟩, ?_⟩
      · intro i j hj
        simp only [AMap.get_set] at hj
        simp only [List.length_append, List.length_cons, List.length_nil, hlen]
        split at hj
        · simp at hj; omega
        · have := h.bound i j hj; omega
      · intro i i' j h1 h2
        simp only [AMap.get_set] at h1 h2
        split at h1
        · rename_i hh; subst hh; simp at h1; subst h1
          split at h2
          · assumption
          · have := h.bound _ _ h2; omega
        · split at h2
          · simp at h2; subst h2
            have := h.bound _ _ h1; omega
          · exact h.inj _ _ _ h1 h2
      · intro i
        simp only [view, AMap.get_set]
        by_cases hi : id = i
        · subst hi
          simp only [if_true, true_and]
          rw [← hlen]
          simp
        · simp only [hi, if_false, false_and]
          cases hj : s.tasks.get i with
          | none => rfl
          | some j =>
            have hb := h.bound i j hj
            simp only
            rw [List.getElem?_append_left (by omega)]
            exact hother i j (Ne.symm hi) hj
  · simp only [if_true]
    split
    · exact ⟨⟨h.bound, h.inj⟩, fun i => by simp [view]⟩
    · exact ⟨h, fun i => by simp⟩

theorem handleData_spec (e : Env) (s : CState) (h : CInv s) (id : Nat) (p : Bytes) :
    CInv (handleData e s id p) ∧
    ∀ i, view (handleData e s id p) i =
      if id = i then (view s i).map (Local.write e p) else view s i := by
  unfold handleData
  split
  · rename_i j hj
    exact ⟨h.modify _ _, fun i => view_modify s h id j hj _ i⟩
  · rename_i hn
    have hv : ∀ i, view s i = if id = i then (view s i).map (Local.write e p) else view s i := by
      intro i
      split
      · rename_i hh; subst hh; simp [view, hn]
      · rfl
    split
    · exact ⟨⟨h.bound, h.inj⟩, fun i => hv i⟩
    · exact ⟨h, hv⟩

theorem handleClose_spec (s : CState) (h : CInv s) (id : Nat) :
    CInv (handleClose s id) ∧
    ∀ i, view (handleClose s id) i =
      if id = i then (view s i).map (fun l => { l with closed := true }) else view s i := by
  unfold handleClose
  split
  · rename_i j hj
    exact ⟨h.modify _ _, fun i => view_modify s h id j hj _ i⟩
  · rename_i hn
    refine ⟨h, fun i => ?_⟩
    split
    · rename_i hh; subst hh; simp [view, hn]
    · rfl

/-- One handled frame acts on every task's view exactly as `own` says. -/
theorem handle_spec (nsvc : Nat) (e : Env) (s s' : CState) (h : CInv s) (f : SFrame) (hv : f.Valid nsvc)
    (hs : handle e (reap e s) f.item = some s') :
    CInv s' ∧ ∀ i, view s' i = own i (view s i) f e := by
  have hr := h.reap e
  cases f with
  | ping =>
    simp only [SFrame.item, handle] at hs
    split at hs
    · simp at hs
    · simp only [Option.some.injEq] at hs; subst hs
      exact ⟨⟨hr.bound, hr.inj⟩, fun i => view_reap e s i⟩
  | close =>
    simp only [SFrame.item, handle] at hs
    split at hs
    · simp at hs
    · split at hs
      · simp at hs
      · simp only [Option.some.injEq] at hs; subst hs
        exact ⟨⟨hr.bound, hr.inj⟩, fun i => view_reap e s i⟩
  | ready =>
    simp only [SFrame.item, handle, Option.some.injEq] at hs; subst hs
    exact ⟨hr, fun i => view_reap e s i⟩
  | services =>
    simp only [SFrame.item, handle, Option.some.injEq] at hs; subst hs
    exact ⟨hr, fun i => view_reap e s i⟩
  | reconnect => exact absurd hv (by simp [SFrame.Valid])
  | info si port =>
    simp only [SFrame.item, handle, Option.some.injEq] at hs; subst hs
    exact ⟨hr, fun i => view_reap e s i⟩
  | open_ id si p =>
    simp only [SFrame.item, handle, Option.some.injEq] at hs; subst hs
    obtain ⟨h1, h2⟩ := handleOpen_spec e _ hr id si p (isXP p)
    refine ⟨⟨h1.bound, h1.inj⟩, fun i => ?_⟩
    have := h2 i
    rw [view_reap] at this
    simp only [own]
    rw [← this]; rfl
  | data id p =>
    simp only [SFrame.item, handle, Option.some.injEq] at hs; subst hs
    obtain ⟨h1, h2⟩ := handleData_spec e _ hr id p
    refine ⟨⟨h1.bound, h1.inj⟩, fun i => ?_⟩
    have := h2 i
    rw [view_reap] at this
    simp only [own]
    exact this
  | closeTask id =>
    simp only [SFrame.item, handle, Option.some.injEq] at hs; subst hs
    obtain ⟨h1, h2⟩ := handleClose_spec _ hr id
    refine ⟨⟨h1.bound, h1.inj⟩, fun i => ?_⟩
    have := h2 i
    rw [view_reap] at this
    simp only [own]
    exact this

theorem handle_none (e : Env) (s : CState) (f : SFrame) (hf : f ≠ .reconnect)
    (hs : handle e s f.item = none) : f = .close ∨ (f = .ping ∧ s.isClosing = true) := by
  cases f <;> simp_all [SFrame.item, handle]

theorem handle_isClosing (e : Env) (s s' : CState) (f : SFrame)
    (hs : handle e s f.item = some s') : s'.isClosing = (s.isClosing || decide (f = .close)) := by
  cases f <;> simp_all [SFrame.item, handle]
  · obtain ⟨_, rfl⟩ := hs; rfl
  · rw [← hs.2.2]
  · subst hs; rfl
  · subst hs
    show (handleOpen _ _ _ _ _ _).isClosing = _
    unfold handleOpen; split <;> (try split) <;> rfl
  · subst hs
    show (handleData _ _ _ _).isClosing = _
    unfold handleData; split <;> (try split) <;> rfl
  · subst hs
    show (handleClose _ _).isClosing = _
    unfold handleClose; split <;> rfl

/-! ## Run -/

theorem own_irrelevant (i : Nat) (v : Option Local) (f : SFrame) (e : Env) (h : concerns i (f, e) = false) :
    own i v f e = v := by
  simp only [concerns, Bool.or_eq_false_iff, decide_eq_false_iff_not] at h
  unfold own
  simp only [h.2, if_false]
  have h1 := h.1
  cases f <;> simp_all [SFrame.isOf]

theorem ownRun_filter (i : Nat) (v : Option Local) (h : List (SFrame × Env)) :
    ownRun i v h = ownRun i v (h.filter (concerns i)) := by
  induction h generalizing v with
  | nil => rfl
  | cons x h ih =>
    cases hc : concerns i x
    · rw [List.filter_cons_of_neg (by simp [hc])]
      rw [← ih]
      simp only [ownRun, List.foldl_cons]
      rw [own_irrelevant i v x.1 x.2 hc]
    · rw [List.filter_cons_of_pos hc]
      simp only [ownRun, List.foldl_cons]
      exact ih _

theorem runC_spec (nsvc : Nat) (hn : nsvc < 65536) (h : List (SFrame × Env)) (s : CState) (hi : CInv s)
    (hv : ∀ x ∈ h, x.1.Valid nsvc) (tail : Bytes) (R : CRes)
    (hR : runC nsvc (h.map (·.2)) s (encAll (h.map (·.1)) ++ tail) = R) :
    (R.running = true ∧ R.rest = tail ∧ CInv R.st ∧ ∀ i, view R.st i = ownRun i (view s i) h) ∨
    (R.running = false ∧ ∃ k x, h[k]? = some x ∧
      (x.1 = .close ∨ x.1 = .ping ∧ (s.isClosing = true ∨ ∃ y ∈ h.take k, y.1 = .close)) ∧
      ∀ i, view R.st i = if i ∈ x.2.ended then none else ownRun i (view s i) (h.take k)) := by
  induction h generalizing s with
  | nil => subst hR; exact Or.inl ⟨rfl, rfl, hi, fun i => rfl⟩
  | cons x h ih =>
    obtain ⟨f, e⟩ := x
    have hvf : f.Valid nsvc := hv (f, e) (by simp)
    have henc : encAll (((f, e) :: h).map (·.1)) ++ tail = f.enc ++ (encAll (h.map (·.1)) ++ tail) := by
      simp [encAll]
    rw [henc] at hR
    simp only [List.map_cons, runC, parseC_enc nsvc hn f hvf] at hR
    have hne : f ≠ .reconnect := by rintro rfl; simp [SFrame.Valid] at hvf
    cases hh : handle e (reap e s) f.item with
    | none =>
      rw [hh] at hR
      subst hR
      refine Or.inr ⟨rfl, 0, (f, e), by simp, ?_, ?_⟩
      · rcases handle_none e _ f hne hh with h1 | ⟨h1, h2⟩
        · exact Or.inl h1
        · exact Or.inr ⟨h1, Or.inl h2⟩
      · intro i
        exact view_reap e s i
    | some s' =>
      rw [hh] at hR
      obtain ⟨hi', hview⟩ := handle_spec nsvc e s s' hi f hvf hh
      have hcl := handle_isClosing e _ s' f hh
      rcases ih s' hi' (fun y hy => hv y (by simp [hy])) hR with ⟨a, b, c, d⟩ | ⟨a, k, x, hx, hd, hw⟩
      · refine Or.inl ⟨a, b, c, fun i => ?_⟩
        rw [d i, hview i]; rfl
      · refine Or.inr ⟨a, k + 1, x, by simpa using hx, ?_, ?_⟩
        · rcases hd with hd | ⟨hp, hd⟩
          · exact Or.inl hd
          · refine Or.inr ⟨hp, ?_⟩
            rcases hd with hd | ⟨y, hy, hyc⟩
            · rw [hcl] at hd
              simp only [Bool.or_eq_true, decide_eq_true_eq] at hd
              rcases hd with hd | hd
              · exact Or.inl hd
              · exact Or.inr ⟨(f, e), by simp, hd⟩
            · exact Or.inr ⟨y, by simp [hy], hyc⟩
        · intro i
          rw [hw i, hview i]
          rfl

end Verif.Tunnel
