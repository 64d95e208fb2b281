import Verif.Reload.Route
set_option linter.unusedSimpArgs false
set_option linter.unusedVariables false
/-! # C63: proofs -/
namespace Verif.Reload.Route

/-- An answer is on its way or about to be sent. -/
def Coming (s : St) (t : Nat) (m : Down) : Prop := m ∈ s.down t ∨ s.owe t = some m

/-- One if the answer is `services`. -/
def owed : Option Down → Nat
  | some .services => 1
  | _ => 0

structure Inv (s : St) : Prop where
  dead : ∀ t, t ∉ s.alive → s.up t = [] ∧ s.down t = [] ∧ s.owe t = none
  ctl : ∀ t ∈ s.cTun, t ∈ s.alive
  us : (∀ t ∈ s.alive, t ∈ s.used) ∧ (∀ t ∈ s.sTun, t ∈ s.used)
  w : s.phase ≠ .sent → s.waiting = []
  h : ∀ t c, Up.hello c ∈ s.up t → c = s.cur ∧ s.phase = .idle
  sv : ∀ t c, Up.services c ∈ s.up t → c = s.cur ∧ s.phase = .sent ∧ t ∈ s.waiting ∧ t ∈ s.cTun ∧ s.up t = [.services c]
  c4 : ∀ t ∈ s.cTun, s.cSvc t = some s.cur ∨ s.phase = .stored ∨ (s.phase = .sent ∧ t ∈ s.waiting)
  c5 : ∀ t ∈ s.alive, t ∈ s.sTun → t ∈ s.cTun ∨ Coming s t .ready
  c6 : ∀ t ∈ s.alive, t ∈ s.sTun → s.ver = some s.cur ∨ s.phase = .stored ∨ (s.phase = .sent ∧ t ∈ s.waiting)
  c7 : ∀ t, Coming s t .services → s.ver = some s.cur ∧ t ∈ s.sTun ∧ s.phase = .sent ∧ s.up t = [] ∧ t ∈ s.waiting
  one : ∀ t, (s.down t).count .services + owed (s.owe t) ≤ 1
  rd : ∀ t, Coming s t .ready → s.phase = .idle
  c8 : ∀ t c, Down.visit c ∈ s.down t → c = s.cur ∧ s.cSvc t = some s.cur ∧ s.phase = .idle
  c9 : ∀ c ∈ s.visitors, s.phase = .idle ∧ (∀ t, s.up t = []) ∧ ∀ t ∈ s.alive, t ∈ s.sTun → c = s.cur
  ow : ∀ t m, s.owe t = some m → m = .ready ∨ m = .services
  st : s.phase = .stored → ∀ t, s.up t = [] ∧ s.down t = [] ∧ s.owe t = none
  log : Right s

theorem inv_init (c : Nat) : Inv (init c) := by
  constructor <;> simp [init, Right, Coming, owed]

theorem upd_self {α} (f : Nat → α) (t : Nat) (x : α) : upd f t x t = x := by simp [upd]
theorem upd_ne {α} (f : Nat → α) {t y : Nat} (x : α) (h : y ≠ t) : upd f t x y = f y := by simp [upd, h]

theorem mem_insertT {l : List Nat} {t x : Nat} : x ∈ insertT l t ↔ x ∈ l ∨ x = t := by
  unfold insertT
  split
  · rename_i h
    constructor
    · exact .inl
    · rintro (h' | rfl)
      · exact h'
      · exact h
  · simp

/-- The connection ends. -/
theorem inv_drop {s : St} (h : Inv s) (t : Nat) : Inv (drop s t) := by
  have hup : ∀ x, x ≠ t → (drop s t).up x = s.up x := fun x hx => upd_ne _ _ hx
  have hdn : ∀ x, x ≠ t → (drop s t).down x = s.down x := fun x hx => upd_ne _ _ hx
  have how : ∀ x, x ≠ t → (drop s t).owe x = s.owe x := fun x hx => upd_ne _ _ hx
  have hupt : (drop s t).up t = [] := upd_self ..
  have hdnt : (drop s t).down t = [] := upd_self ..
  have howt : (drop s t).owe t = none := upd_self ..
  have hcm : ∀ x m, Coming (drop s t) x m ↔ x ≠ t ∧ Coming s x m := by
    intro x m
    unfold Coming
    by_cases e : x = t
    · subst e; rw [hdnt, howt]; simp
    · rw [hdn x e, how x e]; simp [e]
  have hal : ∀ x, x ∈ (drop s t).alive ↔ x ∈ s.alive ∧ x ≠ t := by intro x; simp [drop]
  have hct : ∀ x, x ∈ (drop s t).cTun ↔ x ∈ s.cTun ∧ x ≠ t := by intro x; simp [drop]
  refine ⟨?_, ?_, ⟨?_, h.us.2⟩, h.w, ?_, ?_, ?_, ?_, ?_, ?_, ?_, ?_, ?_, ?_, ?_, ?_, h.log⟩
  · intro x hx
    by_cases e : x = t
    · subst e; exact ⟨hupt, hdnt, howt⟩
    · rw [hup x e, hdn x e, how x e]; exact h.dead x (fun ha => hx ((hal x).mpr ⟨ha, e⟩))
  · intro x hx; obtain ⟨a, b⟩ := (hct x).mp hx; exact (hal x).mpr ⟨h.ctl x a, b⟩
  · intro x hx; exact h.us.1 x ((hal x).mp hx).1
  · intro x c hx
    by_cases e : x = t
    · subst e; rw [hupt] at hx; cases hx
    · rw [hup x e] at hx; exact h.h x c hx
  · intro x c hx
    by_cases e : x = t
    · subst e; rw [hupt] at hx; cases hx
    · rw [hup x e] at hx
      obtain ⟨h1, h2, h3, h4, h5⟩ := h.sv x c hx
      exact ⟨h1, h2, h3, (hct x).mpr ⟨h4, e⟩, by rw [hup x e]; exact h5⟩
  · intro x hx; exact h.c4 x ((hct x).mp hx).1
  · intro x hx hs
    obtain ⟨h1, h2⟩ := (hal x).mp hx
    rcases h.c5 x h1 hs with h3 | h3
    · exact .inl ((hct x).mpr ⟨h3, h2⟩)
    · exact .inr ((hcm x _).mpr ⟨h2, h3⟩)
  · intro x hx hs; exact h.c6 x ((hal x).mp hx).1 hs
  · intro x hx
    obtain ⟨e, hx⟩ := (hcm x _).mp hx
    rw [hup x e]; exact h.c7 x hx
  · intro x
    by_cases e : x = t
    · subst e; rw [hdnt, howt]; simp [owed]
    · rw [hdn x e, how x e]; exact h.one x
  · intro x hx; exact h.rd x ((hcm x _).mp hx).2
  · intro x c hx
    by_cases e : x = t
    · subst e; rw [hdnt] at hx; cases hx
    · rw [hdn x e] at hx; exact h.c8 x c hx
  · intro c hc
    obtain ⟨h1, h2, h3⟩ := h.c9 c hc
    refine ⟨h1, ?_, fun x hx hs => h3 x ((hal x).mp hx).1 hs⟩
    intro x
    by_cases e : x = t
    · subst e; exact hupt
    · rw [hup x e]; exact h2 x
  · intro x m hm
    by_cases e : x = t
    · subst e; rw [howt] at hm; cases hm
    · rw [how x e] at hm; exact h.ow x m hm
  · intro hp x
    by_cases e : x = t
    · subst e; exact ⟨hupt, hdnt, howt⟩
    · rw [hup x e, hdn x e, how x e]; exact h.st hp x

theorem send_mem {s : St} {t : Nat} {m : Down} {x : Nat} {y : Down} :
    y ∈ (send s t m).down x ↔ y ∈ s.down x ∨ (x = t ∧ y = m ∧ t ∈ s.alive) := by
  unfold send
  split
  · rename_i ha
    by_cases e : x = t
    · subst e; simp [upd, ha]
    · simp [upd, e]
  · rename_i ha
    constructor
    · exact .inl
    · rintro (h | ⟨_, _, h⟩)
      · exact h
      · exact absurd h ha

theorem send_fields (s : St) (t : Nat) (m : Down) : ∃ d, send s t m = { s with down := d } := by
  unfold send; split
  · exact ⟨_, rfl⟩
  · exact ⟨s.down, rfl⟩

/-- Sending a message that is not an answer. -/
theorem inv_send {s : St} (h : Inv s) (t : Nat) (m : Down) (hs : s.phase ≠ .stored)
    (h7 : m ≠ .services) (hr : m ≠ .ready)
    (h8 : ∀ c, m = .visit c → c = s.cur ∧ s.cSvc t = some s.cur ∧ s.phase = .idle) : Inv (send s t m) := by
  have hmem := @send_mem s t m
  obtain ⟨d, hd⟩ := send_fields s t m
  have hdead : ∀ x, x ∉ s.alive → (send s t m).down x = s.down x := by
    intro x hx
    unfold send
    split
    · rename_i ha
      exact upd_ne _ _ (fun e => hx (e ▸ ha))
    · rfl
  have hcnt : ∀ x, ((send s t m).down x).count .services = (s.down x).count .services := by
    intro x
    unfold send
    split
    · by_cases ex : x = t
      · subst ex
        dsimp only
        rw [upd_self, List.count_append]
        have h0 : List.count Down.services [m] = 0 := List.count_eq_zero.mpr (by simp [Ne.symm h7])
        rw [h0]; rfl
      · dsimp only; rw [upd_ne _ _ ex]
    · rfl
  rw [hd] at hmem hdead hcnt ⊢
  have hcm : ∀ x m', m' ≠ m → (Coming { s with down := d } x m' ↔ Coming s x m') := by
    intro x m' hne
    unfold Coming
    constructor
    · rintro (h1 | h1)
      · rcases hmem.mp h1 with h2 | ⟨_, h2, _⟩
        · exact .inl h2
        · exact absurd h2 hne
      · exact .inr h1
    · rintro (h1 | h1)
      · exact .inl (hmem.mpr (.inl h1))
      · exact .inr h1
  refine ⟨fun x hx => ⟨(h.dead x hx).1, by rw [hdead x hx]; exact (h.dead x hx).2.1, (h.dead x hx).2.2⟩, h.ctl, h.us, h.w,
    h.h, h.sv, h.c4, ?_, h.c6, ?_, ?_, ?_, ?_, h.c9, h.ow, fun hp => absurd hp hs, h.log⟩
  · intro x hx hxs
    rcases h.c5 x hx hxs with h1 | h1
    · exact .inl h1
    · exact .inr ((hcm x _ (Ne.symm hr)).mpr h1)
  · intro x hx
    exact h.c7 x ((hcm x _ (Ne.symm h7)).mp hx)
  · intro x
    rw [hcnt x]; exact h.one x
  · intro x hx
    exact h.rd x ((hcm x _ (Ne.symm hr)).mp hx)
  · intro x c hx
    rcases hmem.mp hx with h1 | ⟨rfl, h1, _⟩
    · exact h.c8 x c h1
    · exact h8 c h1.symm

theorem inv_closes {s : St} (h : Inv s) (hs : s.phase ≠ .stored) (l : List Nat) :
    Inv (l.foldl (fun s x => send s x .close) s) := by
  induction l generalizing s with
  | nil => exact h
  | cons a l ih =>
    refine ih (inv_send h a .close hs (by intro e; cases e) (by intro e; cases e) (by intro c e; cases e)) ?_
    obtain ⟨d, hd⟩ := send_fields s a .close
    dsimp only
    rw [hd]; exact hs

theorem closes_fields (s : St) (l : List Nat) : ∃ d, l.foldl (fun s x => send s x .close) s = { s with down := d } ∧
    ∀ x, ∀ m ∈ s.down x, m ∈ d x := by
  induction l generalizing s with
  | nil => exact ⟨s.down, rfl, fun x m hm => hm⟩
  | cons a l ih =>
    obtain ⟨d, hd⟩ := send_fields s a .close
    obtain ⟨d', h1, h2⟩ := ih (send s a .close)
    refine ⟨d', ?_, ?_⟩
    · rw [List.foldl_cons, h1, hd]
    · intro x m hm
      exact h2 x m (send_mem.mpr (.inl hm))

/-- The server takes the next message of a tunnel from its queue. -/
theorem inv_pop {s : St} (h : Inv s) (t : Nat) {m : Up} {r : List Up} (hu : s.up t = m :: r) :
    Inv { s with up := upd s.up t r } := by
  have hsub : ∀ x y, y ∈ upd s.up t r x → y ∈ s.up x := by
    intro x y hy
    by_cases e : x = t
    · subst e; rw [upd_self] at hy; rw [hu]; exact List.mem_cons_of_mem _ hy
    · rwa [upd_ne _ _ e] at hy
  have hnil : ∀ x, s.up x = [] → upd s.up t r x = [] := by
    intro x hx
    by_cases e : x = t
    · subst e; rw [hu] at hx; cases hx
    · rw [upd_ne _ _ e]; exact hx
  refine ⟨fun x hx => ⟨hnil x (h.dead x hx).1, (h.dead x hx).2⟩, h.ctl, h.us, h.w, fun x c hx => h.h x c (hsub x _ hx),
    ?_, h.c4, h.c5, h.c6, ?_, h.one, h.rd, h.c8,
    fun c hc => ⟨(h.c9 c hc).1, fun x => hnil x ((h.c9 c hc).2.1 x), (h.c9 c hc).2.2⟩, h.ow,
    fun hp x => ⟨hnil x (h.st hp x).1, (h.st hp x).2⟩, h.log⟩
  · intro x c hx
    obtain ⟨h1, h2, h3, h4, h5⟩ := h.sv x c (hsub x _ hx)
    refine ⟨h1, h2, h3, h4, ?_⟩
    by_cases e : x = t
    · subst e
      rw [hu] at h5
      cases h5
      dsimp only at hx
      rw [upd_self] at hx; cases hx
    · dsimp only; rw [upd_ne _ _ e]; exact h5
  · intro x hx
    obtain ⟨h1, h2, h3, h4⟩ := h.c7 x hx
    exact ⟨h1, h2, h3, hnil x h4.1, h4.2⟩

theorem mem_alive_of_up {s : St} (h : Inv s) {t : Nat} (hu : s.up t ≠ []) : t ∈ s.alive := by
  by_cases ha : t ∈ s.alive
  · exact ha
  · exact absurd (h.dead t ha).1 hu

theorem mem_alive_of_down {s : St} (h : Inv s) {t : Nat} (hu : s.down t ≠ []) : t ∈ s.alive := by
  by_cases ha : t ∈ s.alive
  · exact ha
  · exact absurd (h.dead t ha).2.1 hu

theorem mem_alive_of_coming {s : St} (h : Inv s) {t : Nat} {m : Down} (hu : Coming s t m) : t ∈ s.alive := by
  by_cases ha : t ∈ s.alive
  · exact ha
  · have := h.dead t ha
    unfold Coming at hu
    rw [this.2.1, this.2.2] at hu; simp at hu

/-- The server registers a tunnel under the client's present configuration; the answer is due. -/
theorem inv_register {s : St} (h : Inv s) (t : Nat) (ta : t ∈ s.alive) (m : Down) (l : List Nat) (ck : Nat → Nat)
    (b : List Nat) (hl : ∀ x ∈ l, x ∈ s.sTun ∨ x = t) (htl : t ∈ l) (ho : s.owe t = none)
    (h7' : ∀ x, Coming s x .services → x ∈ l) (hv : s.visitors = [])
    (hcase : (m = .ready ∧ s.phase = .idle) ∨ (m = .services ∧ s.phase = .sent ∧ t ∈ s.cTun ∧ (s.up t = [] ∧ t ∈ s.waiting) ∧
      ¬ Coming s t .services)) :
    Inv { s with ver := some s.cur, sTun := l, sCk := ck, black := b, owe := upd s.owe t (some m) } := by
  have hps : s.phase ≠ .stored := by
    rcases hcase with ⟨_, e⟩ | ⟨_, e, _⟩ <;> (rw [e]; simp)
  have hcm : ∀ x m', Coming { s with ver := some s.cur, sTun := l, sCk := ck, black := b, owe := upd s.owe t (some m) } x m' ↔
      Coming s x m' ∨ (x = t ∧ m' = m) := by
    intro x m'
    unfold Coming
    dsimp only
    by_cases e : x = t
    · subst e; rw [upd_self, ho]; simp [eq_comm]
    · rw [upd_ne _ _ e]; simp [e]
  refine ⟨?_, h.ctl, ⟨h.us.1, ?_⟩, h.w, h.h, h.sv,
    h.c4, ?_, fun x hx hs => .inl rfl, ?_, ?_, ?_, h.c8, ?_, ?_, fun hp => absurd hp hps, h.log⟩
  · intro x hx
    have hne : x ≠ t := fun e => hx (e ▸ ta)
    refine ⟨(h.dead x hx).1, (h.dead x hx).2.1, ?_⟩
    dsimp only; rw [upd_ne _ _ hne]; exact (h.dead x hx).2.2
  · intro x hx
    rcases hl x hx with h1 | rfl
    · exact h.us.2 x h1
    · exact h.us.1 x ta
  · intro x hx hxs
    rcases hl x hxs with h1 | rfl
    · rcases h.c5 x hx h1 with h2 | h2
      · exact .inl h2
      · exact .inr ((hcm x _).mpr (.inl h2))
    · rcases hcase with ⟨hm, _⟩ | ⟨_, _, hc, _⟩
      · exact .inr ((hcm x _).mpr (.inr ⟨rfl, hm.symm⟩))
      · exact .inl hc
  · intro x hx
    rcases (hcm x _).mp hx with h1 | ⟨rfl, h1⟩
    · exact ⟨rfl, h7' x h1, (h.c7 x h1).2.2⟩
    · rcases hcase with ⟨hm, _⟩ | ⟨_, hp1, hp2, hp3⟩
      · rw [hm] at h1; cases h1
      · exact ⟨rfl, htl, hp1, hp3.1.1, hp3.1.2⟩
  · intro x
    dsimp only
    by_cases e : x = t
    · subst e
      rw [upd_self]
      rcases hcase with ⟨hm, _⟩ | ⟨hm, _, _, hno⟩
      · have := h.one x
        rw [hm, ho] at *; simp only [owed] at *; omega
      · have : (s.down x).count .services = 0 := List.count_eq_zero.mpr (fun hh => hno.2 (.inl hh))
        rw [this, hm]; simp [owed]
    · rw [upd_ne _ _ e]; exact h.one x
  · intro x hx
    rcases (hcm x _).mp hx with h1 | ⟨rfl, h1⟩
    · exact h.rd x h1
    · rcases hcase with ⟨_, hp⟩ | ⟨hm, _⟩
      · exact hp
      · rw [hm] at h1; cases h1
  · intro c hc
    have : c ∈ s.visitors := hc
    rw [hv] at this; cases this
  · intro x m' hm
    dsimp only at hm
    by_cases e : x = t
    · subst e
      rw [upd_self] at hm
      cases hm
      rcases hcase with ⟨hm, _⟩ | ⟨hm, _⟩
      · exact .inl hm
      · exact .inr hm
    · rw [upd_ne _ _ e] at hm; exact h.ow x m' hm

/-- The answer is sent. -/
theorem inv_sAnswer {s : St} (h : Inv s) (t : Nat) : Inv (step s (.sAnswer t)) := by
  simp only [step]
  split
  · exact h
  · rename_i m ho
    have ta : t ∈ s.alive := by
      by_cases ha : t ∈ s.alive
      · exact ha
      · have := (h.dead t ha).2.2; rw [ho] at this; cases this
    have hm := h.ow t m ho
    have hst : s.phase ≠ .stored := fun hp => by have := (h.st hp t).2.2; rw [ho] at this; cases this
    have e : send { s with owe := upd s.owe t none } t m =
        { s with owe := upd s.owe t none, down := upd s.down t (s.down t ++ [m]) } := if_pos ta
    rw [e]
    have hcm : ∀ x m', Coming { s with owe := upd s.owe t none, down := upd s.down t (s.down t ++ [m]) } x m' ↔ Coming s x m' := by
      intro x m'
      unfold Coming
      dsimp only
      by_cases e : x = t
      · subst e; rw [upd_self, upd_self, ho]; simp [eq_comm]
      · rw [upd_ne _ _ e, upd_ne _ _ e]
    refine ⟨?_, h.ctl, h.us, h.w, h.h, h.sv, h.c4, fun x hx hs => (h.c5 x hx hs).imp id (hcm x _).mpr, h.c6,
      fun x hx => h.c7 x ((hcm x _).mp hx), ?_, fun x hx => h.rd x ((hcm x _).mp hx), ?_, h.c9, ?_,
      fun hp => absurd hp hst, h.log⟩
    · intro x hx
      have hne : x ≠ t := fun e => hx (e ▸ ta)
      dsimp only
      rw [upd_ne _ _ hne, upd_ne _ _ hne]; exact h.dead x hx
    · intro x
      dsimp only
      by_cases e : x = t
      · subst e
        have := h.one x
        rw [upd_self, upd_self, List.count_append]
        rw [ho] at this
        rcases hm with rfl | rfl
        · simp [owed] at this ⊢; omega
        · simp [owed] at this ⊢; omega
      · rw [upd_ne _ _ e, upd_ne _ _ e]; exact h.one x
    · intro x c hx
      dsimp only at hx
      by_cases e : x = t
      · subst e
        rw [upd_self] at hx
        rcases List.mem_append.mp hx with h1 | h1
        · exact h.c8 x c h1
        · rw [List.mem_singleton] at h1
          rcases hm with rfl | rfl <;> cases h1
      · rw [upd_ne _ _ e] at hx; exact h.c8 x c hx
    · intro x m' hm'
      dsimp only at hm'
      by_cases e : x = t
      · subst e; rw [upd_self] at hm'; cases hm'
      · rw [upd_ne _ _ e] at hm'; exact h.ow x m' hm'

theorem visitors_nil {s : St} (h : Inv s) {t : Nat} {m : Up} {r : List Up} (hu : s.up t = m :: r) : s.visitors = [] := by
  cases hv : s.visitors with
  | nil => rfl
  | cons a l =>
    have := (h.c9 a (by rw [hv]; exact List.mem_cons_self)).2.1 t
    rw [hu] at this; cases this

theorem inv_sRecv {s : St} (h : Inv s) (t : Nat) : Inv (step s (.sRecv t)) := by
  simp only [step]
  by_cases hno : s.owe t = none
  case neg => rw [if_pos hno]; exact h
  rw [if_neg (by simpa using hno)]
  split
  · exact h
  · rename_i c r hu
    have hp := inv_pop h t hu
    obtain ⟨hc, hph⟩ := h.h t c (by rw [hu]; exact List.mem_cons_self)
    have ta : t ∈ s.alive := mem_alive_of_up h (by rw [hu]; simp)
    have hv := visitors_nil h hu
    generalize hs' : ({ s with up := upd s.up t r } : St) = s' at hp ⊢
    have e1 : s'.cur = s.cur := by rw [← hs']
    have e2 : s'.phase = .idle := by rw [← hs']; exact hph
    have e3 : t ∈ s'.alive := by rw [← hs']; exact ta
    have e4 : s'.visitors = [] := by rw [← hs']; exact hv
    have e9 : s'.owe t = none := by rw [← hs']; exact hno
    have hps : s'.phase ≠ .stored := by rw [e2]; simp
    rw [hc, ← e1]
    unfold hello
    split
    · exact inv_send hp t .error hps (by intro e; cases e) (by intro e; cases e) (by intro c e; cases e)
    · have h7 : ∀ x, Coming s' x .services → False := by
        intro x hx; have := (hp.c7 x hx).2.2.1; rw [e2] at this; cases this
      split
      · rename_i hver
        have := inv_register hp t e3 .ready (insertT s'.sTun t) (upd s'.sCk t s'.cur) s'.black
          (fun x hx => mem_insertT.mp hx) (mem_insertT.mpr (.inr rfl)) e9 (fun x hx => (h7 x hx).elim) e4 (.inl ⟨rfl, e2⟩)
        rw [← hver] at this
        exact this
      · dsimp only
        have hcl := inv_closes hp hps (s'.sTun.filter (fun x => s'.sCk x != s'.cur))
        obtain ⟨d, hd, hdm⟩ := closes_fields s' (s'.sTun.filter (fun x => s'.sCk x != s'.cur))
        rw [hd] at hcl ⊢
        refine inv_register hcl t e3 .ready _ _ _ ?_ (mem_insertT.mpr (.inr rfl)) e9 ?_ e4 (.inl ⟨rfl, e2⟩)
        · intro x hx
          rcases mem_insertT.mp hx with h1 | h1
          · exact .inl (List.mem_filter.mp h1).1
          · exact .inr h1
        · intro x hx
          have := (hcl.c7 x hx).2.2.1
          have e2' : Phase.idle = Phase.sent := e2.symm.trans this
          cases e2'
  · rename_i c r hu
    have hp := inv_pop h t hu
    obtain ⟨hc, hph, hw, hct, hone⟩ := h.sv t c (by rw [hu]; exact List.mem_cons_self)
    have ta : t ∈ s.alive := mem_alive_of_up h (by rw [hu]; simp)
    have hv := visitors_nil h hu
    generalize hs' : ({ s with up := upd s.up t r } : St) = s' at hp ⊢
    have e1 : s'.cur = s.cur := by rw [← hs']
    have e2 : s'.phase = .sent := by rw [← hs']; exact hph
    have e3 : t ∈ s'.alive := by rw [← hs']; exact ta
    have e4 : s'.visitors = [] := by rw [← hs']; exact hv
    have e9 : s'.owe t = none := by rw [← hs']; exact hno
    have e5 : t ∈ s'.cTun := by rw [← hs']; exact hct
    have e6 : s'.up t = [] := by
      rw [← hs']; rw [hu] at hone; cases hone; exact upd_self ..
    have e7 : t ∈ s'.waiting := by rw [← hs']; exact hw
    have e8 : ¬ Coming s' t .services := by
      rw [← hs']; intro hm
      have := (h.c7 t hm).2.2.2.1
      rw [hu] at this; cases this
    have hps : s'.phase ≠ .stored := by rw [e2]; simp
    rw [hc, ← e1]
    unfold reload
    split
    · exact inv_send hp t .error hps (by intro e; cases e) (by intro e; cases e) (by intro c e; cases e)
    · exact inv_register hp t e3 .services (insertT s'.sTun t) (upd s'.sCk t s'.cur) s'.black
        (fun x hx => mem_insertT.mp hx) (mem_insertT.mpr (.inr rfl)) e9
        (fun x hx => mem_insertT.mpr (.inl (hp.c7 x hx).2.1)) e4 (.inr ⟨rfl, e2, e5, ⟨e6, e7⟩, e8⟩)

/-- The client takes the next message of a tunnel from its queue; `svc` and `tun` are the changes. -/
theorem inv_cRecv {s : St} (h : Inv s) (t : Nat) : Inv (step s (.cRecv t)) := by
  simp only [step]
  cases hd : s.down t with
  | nil => exact h
  | cons m r =>
    have ta : t ∈ s.alive := mem_alive_of_down h (by rw [hd]; simp)
    have hhd : m ∈ s.down t := by rw [hd]; exact List.mem_cons_self
    have hsub : ∀ x y, y ∈ upd s.down t r x → y ∈ s.down x := by
      intro x y hy
      by_cases e : x = t
      · subst e; rw [upd_self] at hy; rw [hd]; exact List.mem_cons_of_mem _ hy
      · rwa [upd_ne _ _ e] at hy
    have hkeep : ∀ x y, y ∈ s.down x → y ≠ m ∨ x ≠ t → y ∈ upd s.down t r x := by
      intro x y hy hne
      by_cases e : x = t
      · subst e; rw [upd_self]; rw [hd] at hy
        exact (List.mem_cons.mp hy).resolve_left (hne.resolve_right (fun h => h rfl))
      · rw [upd_ne _ _ e]; exact hy
    have hnil : ∀ x, s.down x = [] → upd s.down t r x = [] := by
      intro x hx
      by_cases e : x = t
      · subst e; rw [hd] at hx; cases hx
      · rw [upd_ne _ _ e]; exact hx
    have hst : s.phase ≠ .stored := fun hp => by
      have := (h.st hp t).2.1; rw [hd] at this; cases this
    have hdead : ∀ x, x ∉ s.alive → s.up x = [] ∧ upd s.down t r x = [] ∧ s.owe x = none :=
      fun x hx => ⟨(h.dead x hx).1, hnil x (h.dead x hx).2.1, (h.dead x hx).2.2⟩
    have hcs : ∀ x y, (y ∈ upd s.down t r x ∨ s.owe x = some y) → Coming s x y :=
      fun x y hy => hy.imp (hsub x y) id
    have hck : ∀ x y, Coming s x y → y ≠ m ∨ x ≠ t → (y ∈ upd s.down t r x ∨ s.owe x = some y) :=
      fun x y hy hne => hy.imp (fun h1 => hkeep x y h1 hne) id
    have hone : ∀ x, (upd s.down t r x).count .services + owed (s.owe x) ≤ 1 := by
      intro x
      by_cases e : x = t
      · subst e; rw [upd_self]
        have := h.one x
        rw [hd, List.count_cons] at this
        omega
      · rw [upd_ne _ _ e]; exact h.one x
    cases m with
    | ready =>
      dsimp only
      split
      · exact h
      · have hidle := h.rd t (.inl hhd)
        refine ⟨hdead, ?_, h.us, h.w, h.h, ?_, ?_, ?_, h.c6,
          fun x hx => h.c7 x (hcs x _ hx), hone, fun x hx => h.rd x (hcs x _ hx), ?_, h.c9, h.ow, fun hp => absurd hp hst, h.log⟩
        · intro x hx
          rcases mem_insertT.mp hx with h1 | rfl
          · exact h.ctl x h1
          · exact ta
        · intro x c hx
          obtain ⟨a, b, c, d, f⟩ := h.sv x c hx
          exact ⟨a, b, c, mem_insertT.mpr (.inl d), f⟩
        · intro x hx
          by_cases e : x = t
          · subst e; exact .inl (upd_self ..)
          · rcases mem_insertT.mp hx with h1 | h1
            · dsimp only; rw [upd_ne _ _ e]; exact h.c4 x h1
            · exact absurd h1 e
        · intro x hx hs
          by_cases e : x = t
          · exact .inl (mem_insertT.mpr (.inr e))
          · rcases h.c5 x hx hs with h1 | h1
            · exact .inl (mem_insertT.mpr (.inl h1))
            · exact .inr (hck x _ h1 (.inr e))
        · intro x c hx
          obtain ⟨a, b, d⟩ := h.c8 x c (hsub x _ hx)
          refine ⟨a, ?_, d⟩
          by_cases e : x = t
          · subst e; exact upd_self ..
          · dsimp only; rw [upd_ne _ _ e]; exact b
    | services =>
      dsimp only
      obtain ⟨hver, hsT, hph, hup, hwt⟩ := h.c7 t (.inl hhd)
      have hw' : ∀ x, x ∈ s.waiting → x ≠ t → x ∈ s.waiting.filter (· ≠ t) := by
        intro x hx hne; simp [hx, hne]
      refine ⟨hdead, h.ctl, h.us, fun hp => absurd hph hp, h.h, ?_, ?_, ?_,
        fun x hx hs => .inl hver, ?_, hone, fun x hx => h.rd x (hcs x _ hx), ?_, h.c9, h.ow, fun hp => absurd hp hst, h.log⟩
      · intro x c hx
        obtain ⟨a, b, d, f, g⟩ := h.sv x c hx
        refine ⟨a, b, hw' x d ?_, f, g⟩
        intro e; subst e; rw [hup] at hx; cases hx
      · intro x hx
        by_cases e : x = t
        · subst e; exact .inl (upd_self ..)
        · dsimp only
          rw [upd_ne _ _ e]
          rcases h.c4 x hx with h1 | h1 | ⟨h1, h2⟩
          · exact .inl h1
          · exact .inr (.inl h1)
          · exact .inr (.inr ⟨h1, hw' x h2 e⟩)
      · intro x hx hs
        rcases h.c5 x hx hs with h1 | h1
        · exact .inl h1
        · exact .inr (hck x _ h1 (.inl (by simp)))
      · intro x hx
        obtain ⟨a, b, d, f, g⟩ := h.c7 x (hcs x _ hx)
        refine ⟨a, b, d, f, hw' x g ?_⟩
        intro e
        subst e
        have h1 := h.one x
        rw [hd, List.count_cons_self] at h1
        rcases hx with hx | hx
        · dsimp only at hx
          rw [upd_self] at hx
          have : 0 < r.count .services := List.count_pos_iff.mpr hx
          omega
        · have hx : s.owe x = some .services := hx
          rw [hx] at h1; simp [owed] at h1
      · intro x c hx
        have := (h.c8 x c (hsub x _ hx)).2.2
        rw [hph] at this; cases this
    | close => exact inv_drop h t
    | error =>
      have hd' := inv_drop h t
      refine ⟨hd'.dead, hd'.ctl, hd'.us, ?_, hd'.h, ?_, ?_, hd'.c5, ?_, ?_, hd'.one, hd'.rd, hd'.c8, hd'.c9, hd'.ow, hd'.st, hd'.log⟩
      · intro hp
        have := h.w hp
        show s.waiting.filter (· ≠ t) = []
        rw [this]; rfl
      · intro x c hx
        obtain ⟨a, b, d, f, g⟩ := hd'.sv x c hx
        refine ⟨a, b, ?_, f, g⟩
        have hne : x ≠ t := by
          intro e; subst e
          have : (drop s x).up x = [] := upd_self ..
          rw [this] at g; cases g
        show x ∈ s.waiting.filter (· ≠ t)
        have d : x ∈ s.waiting := d
        simp [d, hne]
      · intro x hx
        have hne : x ≠ t := by
          have : x ∈ s.cTun.filter (· ≠ t) := hx
          simpa using (List.mem_filter.mp this).2
        rcases hd'.c4 x hx with h1 | h1 | ⟨h1, h2⟩
        · exact .inl h1
        · exact .inr (.inl h1)
        · refine .inr (.inr ⟨h1, ?_⟩)
          show x ∈ s.waiting.filter (· ≠ t)
          have h2 : x ∈ s.waiting := h2
          simp [h2, hne]
      · intro x hx hs
        have hne : x ≠ t := by
          have : x ∈ s.alive.filter (· ≠ t) := hx
          simpa using (List.mem_filter.mp this).2
        rcases hd'.c6 x hx hs with h1 | h1 | ⟨h1, h2⟩
        · exact .inl h1
        · exact .inr (.inl h1)
        · refine .inr (.inr ⟨h1, ?_⟩)
          show x ∈ s.waiting.filter (· ≠ t)
          have h2 : x ∈ s.waiting := h2
          simp [h2, hne]
      · intro x hx
        obtain ⟨a, b, d, f, g⟩ := hd'.c7 x hx
        have hne : x ≠ t := by
          intro e; subst e
          have h1 : (drop s x).down x = [] := upd_self ..
          have h2 : (drop s x).owe x = none := upd_self ..
          have hx : Down.services ∈ (drop s x).down x ∨ (drop s x).owe x = some .services := hx
          rw [h1, h2] at hx; simp at hx
        refine ⟨a, b, d, f, ?_⟩
        show x ∈ s.waiting.filter (· ≠ t)
        have g : x ∈ s.waiting := g
        simp [g, hne]
    | visit c =>
      obtain ⟨hc, hsv, hph⟩ := h.c8 t c hhd
      simp only [hsv]
      refine ⟨hdead, h.ctl, h.us, h.w, h.h, h.sv, h.c4, ?_, h.c6,
        fun x hx => h.c7 x (hcs x _ hx), hone, fun x hx => h.rd x (hcs x _ hx), fun x c hx => h.c8 x c (hsub x _ hx), h.c9, h.ow,
        fun hp => absurd hp hst, ?_⟩
      · intro x hx hs
        rcases h.c5 x hx hs with h1 | h1
        · exact .inl h1
        · exact .inr (hck x _ h1 (.inl (by simp)))
      · intro y hy
        rcases List.mem_append.mp hy with h1 | h1
        · exact h.log y h1
        · rw [List.mem_singleton] at h1
          subst h1
          rw [hc]

theorem inv_sLose {s : St} (h : Inv s) (t : Nat) : Inv (step s (.sLose t)) := by
  simp only [step]
  split
  · exact h
  · rename_i ta
    split
    · have hmem : ∀ x, x ∈ s.sTun.filter (· ≠ t) → x ∈ s.sTun := fun x hx => (List.mem_filter.mp hx).1
      split
      · rename_i hnil
        refine ⟨h.dead, h.ctl, ⟨h.us.1, by simp⟩, h.w, h.h, h.sv, h.c4, by simp, by simp, ?_, h.one, h.rd, h.c8, ?_, h.ow, h.st, h.log⟩
        · intro x hx
          have h1 := (h.c7 x hx).2.1
          have ax : x ∈ s.alive := mem_alive_of_coming h hx
          have : x ∈ s.sTun.filter (· ≠ t) := by
            rw [List.mem_filter]
            exact ⟨h1, by simp; intro e; exact ta (e ▸ ax)⟩
          rw [hnil] at this; cases this
        · intro c hc
          exact ⟨(h.c9 c hc).1, (h.c9 c hc).2.1, by simp⟩
      · refine ⟨h.dead, h.ctl, ⟨h.us.1, fun x hx => h.us.2 x (hmem x hx)⟩, h.w, h.h, h.sv, h.c4,
          fun x hx hs => h.c5 x hx (hmem x hs), fun x hx hs => h.c6 x hx (hmem x hs), ?_, h.one, h.rd, h.c8, ?_, h.ow, h.st, h.log⟩
        · intro x hx
          obtain ⟨h1, h2, h3⟩ := h.c7 x hx
          have ax : x ∈ s.alive := mem_alive_of_coming h hx
          refine ⟨h1, ?_, h3⟩
          rw [List.mem_filter]
          exact ⟨h2, by simp; intro e; exact ta (e ▸ ax)⟩
        · intro c hc
          exact ⟨(h.c9 c hc).1, (h.c9 c hc).2.1, fun x hx hs => (h.c9 c hc).2.2 x hx (hmem x hs)⟩
    · exact h

theorem inv_step {s : St} (h : Inv s) (e : Ev) (hc : e.calm s) : Inv (step s e) := by
  cases e with
  | sRecv t => exact inv_sRecv h t
  | cRecv t => exact inv_cRecv h t
  | sAnswer t => exact inv_sAnswer h t
  | lose t => exact inv_drop h t
  | sLose t => exact inv_sLose h t
  | unblack =>
    exact ⟨h.dead, h.ctl, h.us, h.w, h.h, h.sv, h.c4, h.c5, h.c6, h.c7, h.one, h.rd, h.c8, h.c9, h.ow, h.st, h.log⟩
  | connect t =>
    have hv : s.visitors = [] := hc
    simp only [step]
    split
    · exact h
    · rename_i hn
      rw [not_or] at hn
      obtain ⟨hu, hp⟩ := hn
      have hp : s.phase = .idle := Decidable.byContradiction hp
      have hnal : t ∉ s.alive := fun ha => hu (h.us.1 t ha)
      refine ⟨?_, fun x hx => List.mem_cons_of_mem _ (h.ctl x hx), ⟨?_, fun x hx => List.mem_cons_of_mem _ (h.us.2 x hx)⟩,
        h.w, ?_, ?_, h.c4, ?_, ?_, ?_, h.one, h.rd, h.c8, ?_, h.ow, ?_, h.log⟩
      · intro x hx
        simp only [List.mem_cons, not_or] at hx
        dsimp only
        rw [upd_ne _ _ hx.1]
        exact h.dead x hx.2
      · intro x hx
        rcases List.mem_cons.mp hx with rfl | h1
        · exact List.mem_cons_self
        · exact List.mem_cons_of_mem _ (h.us.1 x h1)
      · intro x c hx
        by_cases e : x = t
        · subst e
          dsimp only at hx
          rw [upd_self, List.mem_singleton] at hx
          cases hx; exact ⟨rfl, hp⟩
        · dsimp only at hx; rw [upd_ne _ _ e] at hx; exact h.h x c hx
      · intro x c hx
        by_cases e : x = t
        · subst e
          dsimp only at hx
          rw [upd_self, List.mem_singleton] at hx
          cases hx
        · dsimp only at hx ⊢; rw [upd_ne _ _ e] at hx ⊢; exact h.sv x c hx
      · intro x hx hs
        rcases List.mem_cons.mp hx with rfl | h1
        · exact absurd (h.us.2 x hs) hu
        · exact h.c5 x h1 hs
      · intro x hx hs
        rcases List.mem_cons.mp hx with rfl | h1
        · exact absurd (h.us.2 x hs) hu
        · exact h.c6 x h1 hs
      · intro x hx
        have := (h.c7 x hx).2.2.1
        rw [hp] at this; cases this
      · intro c hc'
        have : c ∈ s.visitors := hc'
        rw [hv] at this; cases this
      · intro hp'
        have : s.phase = .stored := hp'
        rw [hp] at this; cases this
  | reloadStore c =>
    obtain ⟨⟨hp, hup, how, hdn⟩, hv, hnv⟩ := hc
    have hdn' : ∀ t, s.down t = [] := by
      intro t
      cases hd : s.down t with
      | nil => rfl
      | cons m r =>
        have hm : m ∈ s.down t := by rw [hd]; exact List.mem_cons_self
        have h1 := hdn t m hm
        have h2 := hnv t m hm
        rw [h1] at h2; cases h2
    simp only [step]
    split
    · refine ⟨h.dead, h.ctl, h.us, fun _ => h.w (by rw [hp]; simp), ?_, ?_, fun x hx => .inr (.inl rfl), h.c5,
        fun x hx hs => .inr (.inl rfl), ?_, h.one, ?_, ?_, ?_, h.ow, fun _ x => ⟨hup x, hdn' x, how x⟩, h.log⟩
      · intro x c hx
        have hx : Up.hello c ∈ s.up x := hx
        rw [hup x] at hx; cases hx
      · intro x c hx
        have hx : Up.services c ∈ s.up x := hx
        rw [hup x] at hx; cases hx
      · intro x hx
        have hx : Down.services ∈ s.down x ∨ s.owe x = some .services := hx
        rw [hdn' x, how x] at hx; simp at hx
      · intro x hx
        have hx : Down.ready ∈ s.down x ∨ s.owe x = some .ready := hx
        rw [hdn' x, how x] at hx; simp at hx
      · intro x c hx
        have hx : Down.visit c ∈ s.down x := hx
        rw [hdn' x] at hx; cases hx
      · intro c hc'
        have : c ∈ s.visitors := hc'
        rw [hv] at this; cases this
    · exact h
  | reloadSend =>
    simp only [step]
    split
    · rename_i hp
      have hq := h.st hp
      have hct : ∀ x ∈ s.alive, x ∈ s.sTun → x ∈ s.cTun := by
        intro x hx hs
        rcases h.c5 x hx hs with h1 | h1
        · exact h1
        · unfold Coming at h1; rw [(hq x).2.1, (hq x).2.2] at h1; simp at h1
      have hdn : ∀ x (m : Down), m ∈ s.down x → False := by
        intro x m hm; rw [(hq x).2.1] at hm; cases hm
      have hcn : ∀ x (m : Down), Coming s x m → False := by
        intro x m hm; unfold Coming at hm; rw [(hq x).2.1, (hq x).2.2] at hm; simp at hm
      refine ⟨?_, h.ctl, h.us, fun hn => absurd rfl hn, ?_, ?_, fun x hx => .inr (.inr ⟨rfl, hx⟩),
        fun x hx hs => .inl (hct x hx hs), fun x hx hs => .inr (.inr ⟨rfl, hct x hx hs⟩), fun x hx => (hcn x _ hx).elim, h.one,
        fun x hx => (hcn x _ hx).elim, fun x c hx => (hdn x _ hx).elim, ?_, h.ow, (fun hn => by cases hn), h.log⟩
      · intro x hx
        refine ⟨?_, (hq x).2⟩
        dsimp only
        rw [if_neg (fun hm => hx (h.ctl x hm))]
        exact (hq x).1
      · intro x c hx
        dsimp only at hx
        rw [(hq x).1] at hx
        split at hx <;> simp at hx
      · intro x c hx
        dsimp only at hx ⊢
        rw [(hq x).1] at hx ⊢
        split at hx
        · rename_i hm
          rw [if_pos hm]
          simp at hx
          subst hx
          exact ⟨rfl, rfl, hm, hm, rfl⟩
        · cases hx
      · intro c hc'
        have := (h.c9 c hc').1
        rw [hp] at this; cases this
    · exact h
  | reloadEnd =>
    simp only [step]
    split
    · rename_i hpw
      obtain ⟨hp, hw⟩ := hpw
      refine ⟨h.dead, h.ctl, h.us, fun _ => hw, ?_, ?_, ?_, h.c5, ?_, ?_, h.one, fun x hx => rfl, ?_, ?_, h.ow,
        (fun hn => by cases hn), h.log⟩
      · intro x c hx; exact ⟨(h.h x c hx).1, rfl⟩
      · intro x c hx
        have := (h.sv x c hx).2.2.1
        rw [hw] at this; cases this
      · intro x hx
        rcases h.c4 x hx with h1 | h1 | ⟨_, h1⟩
        · exact .inl h1
        · rw [hp] at h1; cases h1
        · rw [hw] at h1; cases h1
      · intro x hx hs
        rcases h.c6 x hx hs with h1 | h1 | ⟨_, h1⟩
        · exact .inl h1
        · rw [hp] at h1; cases h1
        · rw [hw] at h1; cases h1
      · intro x hx
        exfalso
        -- an answer on its way is waited for
        have := (h.c7 x hx).2.2.2.2
        rw [hw] at this; cases this
      · intro x c hx
        have := (h.c8 x c hx).2.2
        rw [hp] at this; cases this
      · intro c hc'
        have := (h.c9 c hc').1
        rw [hp] at this; cases this
    · exact h
  | lookup =>
    obtain ⟨hp, hup, how, hdn⟩ := hc
    simp only [step]
    split
    · rename_i c hv
      refine ⟨h.dead, h.ctl, h.us, h.w, h.h, h.sv, h.c4, h.c5, h.c6, h.c7, h.one, h.rd, h.c8, ?_, h.ow, h.st, h.log⟩
      intro x hx
      rcases List.mem_append.mp hx with h1 | h1
      · exact h.c9 x h1
      · rw [List.mem_singleton] at h1
        subst h1
        refine ⟨hp, hup, ?_⟩
        intro y hy hs
        rcases h.c6 y hy hs with h1 | h1 | ⟨h1, _⟩
        · have h1 : s.ver = some s.cur := h1
          rw [hv] at h1; cases h1; rfl
        · have h1 : s.phase = .stored := h1
          rw [hp] at h1; cases h1
        · have h1 : s.phase = .sent := h1
          rw [hp] at h1; cases h1
    · exact h
  | dispatch k t =>
    obtain ⟨hp, hup, how, hdn⟩ := hc
    simp only [step]
    split
    · exact h
    · rename_i c hk
      have hcv := List.mem_of_getElem? hk
      split
      · rename_i hs
        have h' : Inv { s with visitors := s.visitors.eraseIdx k } :=
          ⟨h.dead, h.ctl, h.us, h.w, h.h, h.sv, h.c4, h.c5, h.c6, h.c7, h.one, h.rd, h.c8,
            fun c hc => h.c9 c (List.mem_of_mem_eraseIdx hc), h.ow, h.st, h.log⟩
        by_cases ta : t ∈ s.alive
        · refine inv_send h' t (.visit c) (by dsimp only; rw [hp]; simp) (by intro e; cases e) (by intro e; cases e) ?_
          intro c' e
          cases e
          refine ⟨(h.c9 c hcv).2.2 t ta hs, ?_, hp⟩
          rcases h.c5 t ta hs with h1 | h1
          · rcases h.c4 t h1 with h2 | h2 | ⟨h2, _⟩
            · exact h2
            · rw [hp] at h2; cases h2
            · rw [hp] at h2; cases h2
          · rcases h1 with h1 | h1
            · have := hdn t _ h1
              cases this
            · rw [how t] at h1; cases h1
        · unfold send
          rw [if_neg ta]
          exact h'
      · exact h

end Verif.Reload.Route
