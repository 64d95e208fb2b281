import Verif.Reload.RouteProps
set_option linter.unusedSimpArgs false
set_option linter.unusedVariables false
/-! # C63: theorems -/
namespace Verif.Reload.Route

theorem inv_run : ∀ (es : List Ev) {s : St}, Inv s → Calm s es → Inv (run s es)
  | [], _, h, _ => h
  | e :: es, _, h, hc => inv_run es (inv_step h e hc.1) hc.2

/-- **C63**, for executions in which visitors arrive only when no tunnel is being opened and no reload runs, and reloads
start only when no visitor is on its way: every visitor is connected to the service that its host names in the
configuration the server routed it by. Any number of tunnels, reloads, broken connections and visitors. Missing: all
other executions, for which it is false (below). -/
theorem visitors_reach_their_service_partial (c : Nat) (es : List Ev) (h : Calm (init c) es) : Right (run (init c) es) :=
  (inv_run es (inv_init c) h).log

/-! ## Without reloads -/

def Ev.noReload : Ev → Prop
  | .reloadStore _ => False
  | _ => True

structure NInv (c : Nat) (s : St) : Prop where
  cur : s.cur = c
  ph : s.phase = .idle
  up : ∀ t, ∀ m ∈ s.up t, m = .hello c
  ver : s.ver = none ∨ s.ver = some c
  vis : ∀ v ∈ s.visitors, v = c
  dn : ∀ t v, Down.visit v ∈ s.down t → v = c
  svc : ∀ t, s.cSvc t = none ∨ s.cSvc t = some c
  ow : ∀ t v, s.owe t ≠ some (.visit v)
  log : ∀ x ∈ s.log, x.1 = c ∧ (x.2 = none ∨ x.2 = some c)

theorem ninv_drop {c : Nat} {s : St} (h : NInv c s) (t : Nat) : NInv c (drop s t) := by
  refine ⟨h.cur, h.ph, ?_, h.ver, h.vis, ?_, h.svc, ?_, h.log⟩
  · intro x m hm
    have hm : m ∈ upd s.up t [] x := hm
    by_cases e : x = t
    · subst e; rw [upd_self] at hm; cases hm
    · rw [upd_ne _ _ e] at hm; exact h.up x m hm
  · intro x v hm
    have hm : Down.visit v ∈ upd s.down t [] x := hm
    by_cases e : x = t
    · subst e; rw [upd_self] at hm; cases hm
    · rw [upd_ne _ _ e] at hm; exact h.dn x v hm
  · intro x v hm
    have hm : upd s.owe t none x = some (.visit v) := hm
    by_cases e : x = t
    · subst e; rw [upd_self] at hm; cases hm
    · rw [upd_ne _ _ e] at hm; exact h.ow x v hm

theorem ninv_owe {c : Nat} {s : St} (h : NInv c s) (t : Nat) (m : Option Down) (hm : ∀ v, m ≠ some (.visit v)) (l : List Nat)
    (ck : Nat → Nat) (b : List Nat) (w : Option Nat) (hw : w = none ∨ w = some c) :
    NInv c { s with ver := w, sTun := l, sCk := ck, black := b, owe := upd s.owe t m } := by
  refine ⟨h.cur, h.ph, h.up, hw, h.vis, h.dn, h.svc, ?_, h.log⟩
  intro x v hx
  dsimp only at hx
  by_cases e : x = t
  · subst e; rw [upd_self] at hx; exact hm v hx
  · rw [upd_ne _ _ e] at hx; exact h.ow x v hx

theorem ninv_send {c : Nat} {s : St} (h : NInv c s) (t : Nat) (m : Down) (hm : ∀ v, m = .visit v → v = c) :
    NInv c (send s t m) := by
  have hmem := @send_mem s t m
  obtain ⟨d, hd⟩ := send_fields s t m
  rw [hd] at hmem ⊢
  refine ⟨h.cur, h.ph, h.up, h.ver, h.vis, ?_, h.svc, h.ow, h.log⟩
  intro x v hx
  rcases hmem.mp hx with h1 | ⟨_, h1, _⟩
  · exact h.dn x v h1
  · exact hm v h1.symm

theorem ninv_step {c : Nat} {s : St} (h : NInv c s) (e : Ev) (he : e.noReload) : NInv c (step s e) := by
  cases e with
  | connect t =>
    simp only [step]
    split
    · exact h
    · refine ⟨h.cur, h.ph, ?_, h.ver, h.vis, h.dn, h.svc, h.ow, h.log⟩
      intro x m hm
      dsimp only at hm
      by_cases e : x = t
      · subst e; rw [upd_self, h.cur] at hm; exact List.mem_singleton.mp hm
      · rw [upd_ne _ _ e] at hm; exact h.up x m hm
  | sAnswer t =>
    simp only [step]
    split
    · exact h
    · rename_i m hm
      refine ninv_send (s := { s with owe := upd s.owe t none })
        (ninv_owe h t none (fun v hv => by cases hv) s.sTun s.sCk s.black s.ver h.ver) t m ?_
      intro v hv
      exact absurd (hv ▸ hm) (h.ow t v)
  | sRecv t =>
    simp only [step]
    split
    · exact h
    split
    · exact h
    · rename_i v r hu
      have hv : v = c := by
        have := h.up t _ (by rw [hu]; exact List.mem_cons_self)
        cases this; rfl
      have hp : NInv c { s with up := upd s.up t r } := by
        refine ⟨h.cur, h.ph, ?_, h.ver, h.vis, h.dn, h.svc, h.ow, h.log⟩
        intro x m hm
        dsimp only at hm
        by_cases e : x = t
        · subst e; rw [upd_self] at hm; exact h.up x m (by rw [hu]; exact List.mem_cons_of_mem _ hm)
        · rw [upd_ne _ _ e] at hm; exact h.up x m hm
      generalize ({ s with up := upd s.up t r } : St) = s' at hp ⊢
      subst hv
      unfold hello
      split
      · exact ninv_send hp t .error (fun w e => by cases e)
      · split
        · exact ninv_owe hp t (some .ready) (fun w e => by cases e) _ _ s'.black s'.ver hp.ver
        · dsimp only
          have hcl : ∀ (l : List Nat) (q : St), NInv v q → NInv v (l.foldl (fun s x => send s x .close) q) := by
            intro l
            induction l with
            | nil => intro q hq; exact hq
            | cons a l ih => intro q hq; exact ih _ (ninv_send hq a .close (fun w e => by cases e))
          have := hcl (s'.sTun.filter (fun x => s'.sCk x != v)) s' hp
          generalize List.foldl (fun s x => send s x .close) s' (s'.sTun.filter (fun x => s'.sCk x != v)) = q at this ⊢
          exact ninv_owe this t (some .ready) (fun w e => by cases e) _ _ _ (some v) (.inr rfl)
    · rename_i v r hu
      have := h.up t _ (by rw [hu]; exact List.mem_cons_self)
      cases this
  | cRecv t =>
    simp only [step]
    split
    · exact h
    all_goals rename_i r hd
    · split
      · exact h
      · refine ⟨h.cur, h.ph, h.up, h.ver, h.vis, ?_, ?_, h.ow, h.log⟩
        · intro x v hm
          dsimp only at hm
          by_cases e : x = t
          · subst e; rw [upd_self] at hm; exact h.dn x v (by rw [hd]; exact List.mem_cons_of_mem _ hm)
          · rw [upd_ne _ _ e] at hm; exact h.dn x v hm
        · intro x
          dsimp only
          by_cases e : x = t
          · subst e; rw [upd_self, h.cur]; exact .inr rfl
          · rw [upd_ne _ _ e]; exact h.svc x
    · refine ⟨h.cur, h.ph, h.up, h.ver, h.vis, ?_, ?_, h.ow, h.log⟩
      · intro x v hm
        dsimp only at hm
        by_cases e : x = t
        · subst e; rw [upd_self] at hm; exact h.dn x v (by rw [hd]; exact List.mem_cons_of_mem _ hm)
        · rw [upd_ne _ _ e] at hm; exact h.dn x v hm
      · intro x
        dsimp only
        by_cases e : x = t
        · subst e; rw [upd_self, h.cur]; exact .inr rfl
        · rw [upd_ne _ _ e]; exact h.svc x
    · exact ninv_drop h t
    · exact ninv_drop (s := { s with waiting := s.waiting.filter (· ≠ t) })
        ⟨h.cur, h.ph, h.up, h.ver, h.vis, h.dn, h.svc, h.ow, h.log⟩ t
    · rename_i v
      have hv : v = c := h.dn t v (by rw [hd]; exact List.mem_cons_self)
      split
      · rename_i x hx
        refine ⟨h.cur, h.ph, h.up, h.ver, h.vis, ?_, h.svc, h.ow, ?_⟩
        · intro x v hm
          dsimp only at hm
          by_cases e : x = t
          · subst e; rw [upd_self] at hm; exact h.dn x v (by rw [hd]; exact List.mem_cons_of_mem _ hm)
          · rw [upd_ne _ _ e] at hm; exact h.dn x v hm
        · intro y hy
          rcases List.mem_append.mp hy with h1 | h1
          · exact h.log y h1
          · rw [List.mem_singleton] at h1
            subst h1
            refine ⟨hv, ?_⟩
            have := h.svc t
            rw [hx] at this
            exact this
      · refine ninv_drop (s := { s with log := s.log ++ [(v, none)] }) ⟨h.cur, h.ph, h.up, h.ver, h.vis, h.dn, h.svc, h.ow, ?_⟩ t
        intro y hy
        rcases List.mem_append.mp hy with h1 | h1
        · exact h.log y h1
        · rw [List.mem_singleton] at h1
          subst h1
          exact ⟨hv, .inl rfl⟩
  | lose t => exact ninv_drop h t
  | sLose t =>
    simp only [step]
    split
    · exact h
    · split
      · split
        · exact ⟨h.cur, h.ph, h.up, .inl rfl, h.vis, h.dn, h.svc, h.ow, h.log⟩
        · exact ⟨h.cur, h.ph, h.up, h.ver, h.vis, h.dn, h.svc, h.ow, h.log⟩
      · exact h
  | unblack => exact ⟨h.cur, h.ph, h.up, h.ver, h.vis, h.dn, h.svc, h.ow, h.log⟩
  | reloadStore c => cases he
  | reloadSend =>
    simp only [step]
    rw [if_neg (by rw [h.ph]; simp)]; exact h
  | reloadEnd =>
    simp only [step]
    rw [if_neg (by rw [h.ph]; simp)]; exact h
  | lookup =>
    simp only [step]
    split
    · rename_i v hv
      refine ⟨h.cur, h.ph, h.up, h.ver, ?_, h.dn, h.svc, h.ow, h.log⟩
      intro x hx
      rcases List.mem_append.mp hx with h1 | h1
      · exact h.vis x h1
      · rw [List.mem_singleton] at h1
        subst h1
        rcases h.ver with h2 | h2
        · rw [hv] at h2; cases h2
        · rw [hv] at h2; cases h2; rfl
    · exact h
  | dispatch k t =>
    simp only [step]
    split
    · exact h
    · rename_i v hk
      split
      · refine ninv_send (s := { s with visitors := s.visitors.eraseIdx k })
          ⟨h.cur, h.ph, h.up, h.ver, fun x hx => h.vis x (List.mem_of_mem_eraseIdx hx), h.dn, h.svc, h.ow, h.log⟩
          t (.visit v) ?_
        intro w e
        cases e
        exact h.vis v (List.mem_of_getElem? hk)
      · exact h

/-- As long as the client does not reload, no visitor reaches a wrong service, in any execution: it reaches the right
one or (next theorem) none. -/
theorem without_reload_never_wrong (c : Nat) (es : List Ev) (h : ∀ e ∈ es, e.noReload) :
    ∀ x ∈ (run (init c) es).log, x.1 = c ∧ (x.2 = none ∨ x.2 = some c) := by
  have : ∀ (es : List Ev) (s : St), NInv c s → (∀ e ∈ es, e.noReload) → NInv c (run s es) := by
    intro es
    induction es with
    | nil => intro s h _; exact h
    | cons e es ih =>
      intro s h he
      exact ih _ (ninv_step h e (he e List.mem_cons_self)) (fun x hx => he x (List.mem_cons_of_mem _ hx))
  exact (this es (init c) (by constructor <;> simp [init]) h).log

/-! ## Non-vacuity: a calm execution with two tunnels, a reload and visitors before and after -/

/-- Two tunnels are opened, a visitor comes, the client reloads configuration 2, a visitor comes on each tunnel. -/
def calmRun : List Ev :=
  [.connect 0, .connect 1, .sRecv 0, .sRecv 1, .sAnswer 1, .sAnswer 0, .cRecv 0, .cRecv 1,
   .lookup, .dispatch 0 0, .cRecv 0,
   .reloadStore 2, .reloadSend, .sRecv 1, .sRecv 0, .sAnswer 0, .cRecv 0, .sAnswer 1, .cRecv 1, .reloadEnd,
   .lookup, .dispatch 0 1, .lookup, .dispatch 0 0, .cRecv 1, .cRecv 0]

theorem settled_of {s : St} (l : List Nat) (hp : s.phase = .idle) (hu : ∀ t ∈ l, s.up t = [])
    (ho : ∀ t ∈ l, s.owe t = none) (hd : ∀ t ∈ l, ∀ m ∈ s.down t, m.isVisit = true)
    (hi : Inv s) (hl : ∀ t ∈ s.alive, t ∈ l) : Settled s := by
  refine ⟨hp, fun t => ?_, fun t => ?_, fun t => ?_⟩ <;> by_cases e : t ∈ s.alive
  · exact hu t (hl t e)
  · exact (hi.dead t e).1
  · exact ho t (hl t e)
  · exact (hi.dead t e).2.2
  · exact hd t (hl t e)
  · rw [(hi.dead t e).2.1]; intro m hm; cases hm

/-- `Calm` can be checked by computation on a list of tunnels that contains all open ones. -/
def Ev.calmB (s : St) (l : List Nat) : Ev → Bool
  | .connect _ => decide (s.visitors = [])
  | .reloadStore _ => settledB s l && decide (s.visitors = []) && l.all (fun t => (s.down t).all (fun m => !m.isVisit))
  | .lookup => settledB s l
  | .dispatch _ _ => settledB s l
  | _ => true
where settledB (s : St) (l : List Nat) : Bool :=
  decide (s.phase = .idle) && l.all (fun t => decide (s.up t = []) && decide (s.owe t = none) &&
    (s.down t).all (fun m => m.isVisit)) && s.alive.all (fun t => decide (t ∈ l))

theorem settledB_sound {s : St} {l : List Nat} (hi : Inv s) (h : Ev.calmB.settledB s l = true) : Settled s := by
  simp only [Ev.calmB.settledB, Bool.and_eq_true, decide_eq_true_eq, List.all_eq_true] at h
  exact settled_of l h.1.1 (fun t ht => (h.1.2 t ht).1.1) (fun t ht => (h.1.2 t ht).1.2)
    (fun t ht m hm => (h.1.2 t ht).2 m hm) hi h.2

def calmAll (l : List Nat) : St → List Ev → Bool
  | _, [] => true
  | s, e :: es => e.calmB s l && calmAll l (step s e) es

theorem calmAll_sound (l : List Nat) : ∀ (es : List Ev) (s : St), Inv s → calmAll l s es = true → Calm s es
  | [], _, _, _ => trivial
  | e :: es, s, hi, h => by
    simp only [calmAll, Bool.and_eq_true] at h
    have hc : e.calm s := by
      cases e with
      | connect t => simpa [Ev.calmB, Ev.calm] using h.1
      | reloadStore c =>
        have h1 := h.1
        simp only [Ev.calmB, Bool.and_eq_true, decide_eq_true_eq] at h1
        have hs := settledB_sound hi h1.1.1
        refine ⟨hs, h1.1.2, fun t m hm => ?_⟩
        have hl : t ∈ l := by
          have h2 := h1.1.1
          simp only [Ev.calmB.settledB, Bool.and_eq_true, decide_eq_true_eq, List.all_eq_true] at h2
          refine h2.2 t ?_
          exact mem_alive_of_down hi (by intro e; rw [e] at hm; cases hm)
        have := List.all_eq_true.mp (List.all_eq_true.mp h1.2 t hl) m hm
        simpa using this
      | lookup => exact settledB_sound hi h.1
      | dispatch k t => exact settledB_sound hi h.1
      | _ => trivial
    exact ⟨hc, calmAll_sound l es _ (inv_step hi e hc) h.2⟩

example : Calm (init 1) calmRun := calmAll_sound [0, 1] _ _ (inv_init 1) (by decide +kernel)
example : (run (init 1) calmRun).log = [(1, some 1), (2, some 2), (2, some 2)] := by decide +kernel

/-! ## Executions that go wrong -/

/-- The client with one tunnel that is ready. -/
def open1 : List Ev := [.connect 0, .sRecv 0, .sAnswer 0, .cRecv 0]

/-- **C63 is false**: a visitor that the server hands to a tunnel after it registered it and before it says so makes the
client dereference a nil pointer; the visitor gets nothing and the tunnel ends. No reload is needed. -/
theorem early_visitor_crashes_tunnel :
    let s := run (init 1) [.connect 0, .sRecv 0, .lookup, .dispatch 0 0, .sAnswer 0, .cRecv 0]
    s.log = [(1, none)] ∧ s.alive = [] ∧ s.cTun = [] := by decide +kernel

/-- Had the client read the answer first, the visitor would have been served. -/
example : (run (init 1) (open1 ++ [.lookup, .dispatch 0 0, .cRecv 0])).log = [(1, some 1)] := by decide +kernel

/-- **C63 is false** while a reload runs: the server routes by the new configuration before the tunnel is told so; the
client looks the new index up in the old list and connects the visitor to another service. -/
theorem reload_new_index_in_old_list :
    (run (init 1) (open1 ++ [.reloadStore 2, .reloadSend, .sRecv 0, .lookup, .dispatch 0 0, .sAnswer 0, .cRecv 0])).log =
      [(2, some 1)] := by decide +kernel

/-- The other way round: the visitor's host was looked up before the reload, and it is handed to the tunnel after. -/
theorem reload_old_index_in_new_list :
    (run (init 1) (open1 ++ [.lookup, .reloadStore 2, .reloadSend, .sRecv 0, .sAnswer 0, .cRecv 0, .reloadEnd,
      .dispatch 0 0, .cRecv 0])).log = [(1, some 2)] := by decide +kernel

/-- With two tunnels the window is longer: as soon as one tunnel has told the server the new services, visitors on the
other one get a wrong service until that tunnel has done so, too. -/
theorem reload_two_tunnels :
    (run (init 1) (open1 ++ [.connect 1, .sRecv 1, .sAnswer 1, .cRecv 1, .reloadStore 2, .reloadSend, .sRecv 0, .sAnswer 0,
      .cRecv 0, .lookup, .dispatch 0 1, .cRecv 1])).log = [(2, some 1)] := by decide +kernel

/-- A tunnel that was being opened with the old services when the reload began undoes the reload: the server goes back to
the old services, closes the reloaded tunnel and bars the new services (`black`). The new tunnel has the new services on
the client's side: its visitors get wrong services as long as it lives, though nothing is being set up any more. -/
theorem reload_undone_by_late_connection :
    let s := run (init 1) (open1 ++ [.connect 1, .reloadStore 2, .reloadSend, .sRecv 0, .sAnswer 0, .cRecv 0, .reloadEnd,
      .sRecv 1, .sAnswer 1, .cRecv 0, .cRecv 1])
    s.cur = 2 ∧ s.ver = some 1 ∧ s.black = [2] ∧ s.alive = [1] ∧ s.cTun = [1] ∧
      Ev.calmB.settledB s [0, 1] = true ∧
      (run s [.lookup, .dispatch 0 1, .cRecv 1]).log = [(1, some 2)] ∧
      -- the client's further tunnels are refused
      (run s [.connect 2, .sRecv 2]).down 2 = [.error] := by decide +kernel

end Verif.Reload.Route
