import Verif.Common
set_option linter.unusedSimpArgs false
set_option linter.unusedVariables false
/-!
# C86: waiting until a client is ready
(libcs/client/client.go:709-749 `addTunnel`, `removeTunnel`, `WaitUntilReady`)

Any number of callers of `WaitUntilReady` interleave with tunnels that come and go and with the callers' timers.
`tunnelsCond` uses the read lock of `tunnelsRWMtx`; broadcasts are made without it.
-/
namespace Verif.Client.Ready

/-- Where a caller is. -/
inductive PC where
  | idle
  /-- has the read lock; the timer is armed (libcs/client/client.go:727-733) -/
  | locked
  /-- saw no tunnel (735), is about to be added to the list of `tunnelsCond` (736) -/
  | toWait
  | asleep
  /-- was woken, has not yet the read lock again -/
  | woken
  /-- returned; `true`: without an error -/
  | returned (ok : Bool)
deriving DecidableEq, Repr

/-- A broadcast that is about to be made. -/
inductive From where
  /-- by `addTunnel` (libcs/client/client.go:714) -/
  | tunnel
  /-- by a timer (732) -/
  | timer
deriving DecidableEq, Repr

structure St where
  pc : Nat → PC
  /-- whether the timer of a caller has stored its error -/
  expired : Nat → Bool
  /-- number of tunnels -/
  tunnels : Nat
  pending : List From

def init : St := { pc := fun _ => .idle, expired := fun _ => false, tunnels := 0, pending := [] }

inductive Ev where
  | begin_ (w : Nat)
  | look (w : Nat)
  | register (w : Nat)
  | resume (w : Nat)
  /-- the timer of a caller fires -/
  | fire (w : Nat)
  | add
  | remove
  /-- one of the pending broadcasts is made -/
  | broadcast (k : Nat)
deriving DecidableEq, Repr

def upd {α} (f : Nat → α) (t : Nat) (x : α) : Nat → α := fun y => if y = t then x else f y

/-- The callers that have the read lock, so that no tunnel is added or removed. -/
def Reading (s : St) : Prop := ∃ w, s.pc w = .locked ∨ s.pc w = .toWait

def wake : PC → PC
  | .asleep => .woken
  | p => p

open Classical in
/-- One atomic step. The event `begin_` takes the lock and arms the timer (libcs/client/client.go:727-733); `look` is the loop condition
(735); `register` is the part of `Cond.Wait` that joins the list and releases the lock; `resume` takes the lock again and
looks at the error (736-744): as it returns in either case, the loop never goes round. `Stop` of the timer (734) is the
condition of `fire`. -/
noncomputable def step (s : St) : Ev → St
  | .begin_ w => if s.pc w = .idle then { s with pc := upd s.pc w .locked } else s
  | .look w =>
    if s.pc w = .locked then
      { s with pc := upd s.pc w (if s.tunnels < 1 then .toWait else .returned true) }
    else s
  | .register w => if s.pc w = .toWait then { s with pc := upd s.pc w .asleep } else s
  | .resume w =>
    if s.pc w = .woken then { s with pc := upd s.pc w (.returned (!s.expired w)) } else s
  | .fire w =>
    if s.pc w ≠ .idle ∧ (∀ b, s.pc w ≠ .returned b) ∧ s.expired w = false then
      { s with expired := upd s.expired w true, pending := s.pending ++ [.timer] }
    else s
  | .add => if Reading s then s else { s with tunnels := s.tunnels + 1, pending := s.pending ++ [.tunnel] }
  | .remove => if Reading s then s else { s with tunnels := s.tunnels - 1 }
  | .broadcast k =>
    if k < s.pending.length then { s with pc := fun w => wake (s.pc w), pending := s.pending.eraseIdx k } else s

noncomputable def run (s : St) : List Ev → St
  | [] => s
  | e :: es => run (step s e) es

/-! ## Proofs -/

theorem upd_self {α} (f : Nat → α) (t : Nat) (x : α) : upd f t x t = x := by simp [upd]
theorem upd_ne {α} (f : Nat → α) {t y : Nat} (x : α) (h : y ≠ t) : upd f t x y = f y := by simp [upd, h]

theorem run_append (s : St) (a b : List Ev) : run s (a ++ b) = run (run s a) b := by
  induction a generalizing s with
  | nil => rfl
  | cons e es ih => exact ih (step s e)

theorem add_blocked {s : St} (h : Reading s) : step s .add = s := by simp only [step]; rw [if_pos h]
theorem add_free {s : St} (h : ¬ Reading s) :
    step s .add = { s with tunnels := s.tunnels + 1, pending := s.pending ++ [.tunnel] } := by simp only [step]; rw [if_neg h]
theorem remove_free {s : St} (h : ¬ Reading s) : step s .remove = { s with tunnels := s.tunnels - 1 } := by
  simp only [step]; rw [if_neg h]

/-- A caller that is to go to sleep or asleep sleeps for a reason: there is no tunnel, or a broadcast for it is due. -/
def Inv (s : St) : Prop :=
  (∀ w, s.pc w = .toWait → s.tunnels = 0) ∧
  (∀ w, s.pc w = .asleep → s.tunnels = 0 ∨ From.tunnel ∈ s.pending)

theorem inv_init : Inv init := ⟨fun w h => (by cases h), fun w h => (by cases h)⟩

theorem wake_asleep (p : PC) : wake p ≠ .asleep := by cases p <;> simp [wake]
theorem wake_toWait {p : PC} (h : wake p = .toWait) : p = .toWait := by cases p <;> simp_all [wake]

theorem inv_set {s : St} (h : Inv s) (w : Nat) (p : PC) (h1 : p = .toWait → s.tunnels = 0)
    (h2 : p = .asleep → s.tunnels = 0) : Inv { s with pc := upd s.pc w p } := by
  refine ⟨fun v hv => ?_, fun v hv => ?_⟩
  · have hv : upd s.pc w p v = .toWait := hv
    by_cases e : v = w
    · subst e; rw [upd_self] at hv; exact h1 hv
    · rw [upd_ne _ _ e] at hv; exact h.1 v hv
  · have hv : upd s.pc w p v = .asleep := hv
    by_cases e : v = w
    · subst e; rw [upd_self] at hv; exact .inl (h2 hv)
    · rw [upd_ne _ _ e] at hv; exact h.2 v hv

theorem inv_step {s : St} (h : Inv s) (e : Ev) : Inv (step s e) := by
  cases e with
  | begin_ w =>
    simp only [step]; split
    · exact inv_set h w _ (by simp) (by simp)
    · exact h
  | look w =>
    simp only [step]; split
    · refine inv_set h w _ ?_ ?_
      · split
        · intro _; omega
        · simp
      · split <;> simp
    · exact h
  | register w =>
    simp only [step]; split
    · rename_i hp
      exact inv_set h w _ (by simp) (fun _ => h.1 w hp)
    · exact h
  | resume w =>
    simp only [step]; split
    · exact inv_set h w _ (by simp) (by simp)
    · exact h
  | fire w =>
    simp only [step]; split
    · refine ⟨h.1, fun v hv => ?_⟩
      rcases h.2 v hv with h' | h'
      · exact .inl h'
      · exact .inr (List.mem_append_left _ h')
    · exact h
  | add =>
    simp only [step]; split
    · exact h
    · rename_i hr
      exact ⟨fun v hv => absurd ⟨v, .inr hv⟩ hr, fun v hv => .inr (by simp)⟩
  | remove =>
    simp only [step]; split
    · exact h
    · refine ⟨fun v hv => ?_, fun v hv => ?_⟩
      · have := h.1 v hv; show s.tunnels - 1 = 0; omega
      · rcases h.2 v hv with h' | h'
        · left; show s.tunnels - 1 = 0; omega
        · exact .inr h'
  | broadcast k =>
    simp only [step]; split
    · exact ⟨fun v hv => h.1 v (wake_toWait hv), fun v hv => absurd hv (wake_asleep _)⟩
    · exact h

theorem inv_run : ∀ (es : List Ev) {s : St}, Inv s → Inv (run s es)
  | [], _, h => h
  | e :: es, _, h => inv_run es (inv_step h e)

/-- **C86, no wake-up is lost for a tunnel**: in every execution, whoever sleeps while the client has a tunnel is about to
be woken, and returns once the broadcast is made. -/
theorem tunnel_wakes_sleepers (es : List Ev) (w : Nat) (hs : (run init es).pc w = .asleep) (ht : 0 < (run init es).tunnels) :
    ∃ k, ∃ b, (run init (es ++ [.broadcast k, .resume w])).pc w = .returned b := by
  rcases (inv_run es inv_init).2 w hs with h | h
  · omega
  · obtain ⟨k, hk, _⟩ := List.mem_iff_getElem.mp h
    refine ⟨k, !(run init es).expired w, ?_⟩
    rw [run_append]
    generalize run init es = s at *
    have e1 : step s (.broadcast k) = { s with pc := fun w => wake (s.pc w), pending := s.pending.eraseIdx k } := by
      simp only [step]; rw [if_pos hk]
    show (step (step s (.broadcast k)) (.resume w)).pc w = _
    rw [e1]
    simp only [step]
    rw [if_pos (by rw [hs]; rfl)]
    show upd (fun w => wake (s.pc w)) w _ w = _
    exact upd_self ..

/-- **C86, ready at once**: if the client has a tunnel when the caller looks, it returns without an error and without
waiting. -/
theorem ready_at_once (s : St) (w : Nat) (hp : s.pc w = .locked) (ht : 0 < s.tunnels) :
    (step s (.look w)).pc w = .returned true := by
  simp only [step]; rw [if_pos hp, if_neg (by omega)]; exact upd_self ..

/-- Once returned, a caller stays returned with the same result. -/
theorem returned_stays {s : St} {w : Nat} {b : Bool} (h : s.pc w = .returned b) (e : Ev) : (step s e).pc w = .returned b := by
  have hset : ∀ (v : Nat) (p : PC), s.pc v ≠ .returned b → upd s.pc v p w = .returned b := by
    intro v p hv
    rw [upd_ne _ _ (fun e => hv (by rw [← e]; exact h))]; exact h
  cases e with
  | begin_ v => simp only [step]; split
                · rename_i hp; exact hset v _ (by rw [hp]; simp)
                · exact h
  | look v => simp only [step]; split
              · rename_i hp; exact hset v _ (by rw [hp]; simp)
              · exact h
  | register v => simp only [step]; split
                  · rename_i hp; exact hset v _ (by rw [hp]; simp)
                  · exact h
  | resume v => simp only [step]; split
                · rename_i hp; exact hset v _ (by rw [hp]; simp)
                · exact h
  | fire v => simp only [step]; split <;> exact h
  | add => simp only [step]; split <;> exact h
  | remove => simp only [step]; split <;> exact h
  | broadcast k =>
    simp only [step]; split
    · show wake (s.pc w) = _; rw [h]; rfl
    · exact h

/-- The timer's error is stored only by the caller's own timer. -/
theorem expired_iff_fired : ∀ (es : List Ev) (s : St) (w : Nat), (run s es).expired w = true → s.expired w = true ∨ .fire w ∈ es
  | [], s, w, h => .inl h
  | e :: es, s, w, h => by
    rcases expired_iff_fired es (step s e) w h with h' | h'
    · by_cases he : e = .fire w
      · exact .inr (by rw [he]; exact List.mem_cons_self)
      · left
        cases e with
        | fire v =>
          simp only [step] at h'; split at h'
          · have h'' : upd s.expired v true w = true := h'
            rw [upd_ne _ _ (fun e => he (by rw [e]))] at h''; exact h''
          · exact h'
        | begin_ v => simp only [step] at h'; split at h' <;> exact h'
        | look v => simp only [step] at h'; split at h' <;> exact h'
        | register v => simp only [step] at h'; split at h' <;> exact h'
        | resume v => simp only [step] at h'; split at h' <;> exact h'
        | add => simp only [step] at h'; split at h' <;> exact h'
        | remove => simp only [step] at h'; split at h' <;> exact h'
        | broadcast k => simp only [step] at h'; split at h' <;> exact h'
    · exact .inr (List.mem_cons_of_mem _ h')

/-- The results are consistent with the stored errors. -/
def RInv (s : St) : Prop := ∀ w, s.pc w = .returned false → s.expired w = true

theorem rinv_step {s : St} (h : RInv s) (e : Ev) : RInv (step s e) := by
  have hset : ∀ (v : Nat) (p : PC), (p = .returned false → s.expired v = true) → RInv { s with pc := upd s.pc v p } := by
    intro v p hp w hw
    have hw : upd s.pc v p w = .returned false := hw
    by_cases e : w = v
    · subst e; rw [upd_self] at hw; exact hp hw
    · rw [upd_ne _ _ e] at hw; exact h w hw
  cases e with
  | begin_ v => simp only [step]; split
                · exact hset v _ (by simp)
                · exact h
  | look v => simp only [step]; split
              · refine hset v _ ?_; split <;> simp
              · exact h
  | register v => simp only [step]; split
                  · exact hset v _ (by simp)
                  · exact h
  | resume v => simp only [step]; split
                · exact hset v _ (by simp)
                · exact h
  | fire v =>
    simp only [step]; split
    · intro w hw
      show upd s.expired v true w = true
      by_cases e : w = v
      · subst e; exact upd_self ..
      · rw [upd_ne _ _ e]; exact h w hw
    · exact h
  | add => simp only [step]; split <;> exact h
  | remove => simp only [step]; split <;> exact h
  | broadcast k =>
    simp only [step]; split
    · intro w hw
      refine h w ?_
      have hw : wake (s.pc w) = .returned false := hw
      revert hw
      cases s.pc w <;> simp [wake]
    · exact h

theorem rinv_run : ∀ (es : List Ev) {s : St}, RInv s → RInv (run s es)
  | [], _, h => h
  | e :: es, _, h => rinv_run es (rinv_step h e)

/-- **C86, a timeout is reported only after the caller's own timeout**, whatever other callers do. -/
theorem timeout_only_after_own_timer (es : List Ev) (w : Nat) (h : (run init es).pc w = .returned false) : .fire w ∈ es := by
  have h1 := rinv_run es (s := init) (fun w h => by cases h) w h
  rcases expired_iff_fired es init w h1 with h2 | h2
  · cases h2
  · exact h2

/-! ### What is not true -/

/-- With one caller only, success means that a tunnel was added some time. -/
structure OInv (s : St) (added : Prop) (w : Nat) : Prop where
  others : ∀ v, v ≠ w → s.pc v = .idle
  tun : 0 < s.tunnels → added
  pend : From.tunnel ∈ s.pending → added
  woken : s.pc w = .woken → s.expired w = false → added
  timer : From.timer ∈ s.pending → s.expired w = true
  ok : s.pc w = .returned true → added

theorem oinv_step {s : St} {a : Prop} {w : Nat} (h : OInv s a w) (e : Ev) (he : ∀ v, e = .begin_ v → v = w) :
    OInv (step s e) (a ∨ e = .add) w := by
  have hid : OInv s (a ∨ e = .add) w :=
    ⟨h.others, fun x => .inl (h.tun x), fun x => .inl (h.pend x), fun x y => .inl (h.woken x y), h.timer, fun x => .inl (h.ok x)⟩
  have hset : ∀ (v : Nat) (p : PC), s.pc v ≠ .idle ∨ v = w → (p = .woken → s.expired v = false → a) →
      (p = .returned true → a) → OInv { s with pc := upd s.pc v p } (a ∨ e = .add) w := by
    intro v p hv h1 h2
    have hvw : v = w := by
      rcases hv with hv | hv
      · exact Classical.byContradiction fun hne => hv (h.others v hne)
      · exact hv
    subst hvw
    refine ⟨fun u hu => ?_, fun x => .inl (h.tun x), fun x => .inl (h.pend x), fun x y => ?_, h.timer, fun x => ?_⟩
    · show upd s.pc v p u = .idle
      rw [upd_ne _ _ hu]; exact h.others u hu
    · have x : upd s.pc v p v = .woken := x
      rw [upd_self] at x; exact .inl (h1 x y)
    · have x : upd s.pc v p v = .returned true := x
      rw [upd_self] at x; exact .inl (h2 x)
  cases e with
  | begin_ v =>
    simp only [step]; split
    · exact hset v _ (.inr (he v rfl)) (by simp) (by simp)
    · exact hid
  | look v =>
    simp only [step]; split
    · rename_i hp
      refine hset v _ (.inl (by rw [hp]; simp)) ?_ ?_
      · split <;> simp
      · split
        · simp
        · intro _; exact h.tun (by omega)
    · exact hid
  | register v =>
    simp only [step]; split
    · rename_i hp; exact hset v _ (.inl (by rw [hp]; simp)) (by simp) (by simp)
    · exact hid
  | resume v =>
    simp only [step]; split
    · rename_i hp
      refine hset v _ (.inl (by rw [hp]; simp)) (by simp) ?_
      intro hx
      have hvw : v = w := Classical.byContradiction fun hne => by rw [h.others v hne] at hp; cases hp
      subst hvw
      refine h.woken hp ?_
      cases hh : s.expired v with
      | false => rfl
      | true => rw [hh] at hx; cases hx
    · exact hid
  | fire v =>
    simp only [step]; split
    · rename_i hp
      have hvw : v = w := Classical.byContradiction fun hne => hp.1 (h.others v hne)
      subst hvw
      refine ⟨h.others, fun x => .inl (h.tun x), fun x => ?_, fun x y => ?_, fun x => upd_self .., fun x => .inl (h.ok x)⟩
      · rcases List.mem_append.mp x with x | x
        · exact .inl (h.pend x)
        · simp at x
      · have y : upd s.expired v true v = false := y
        rw [upd_self] at y; cases y
    · exact hid
  | add =>
    by_cases hr : Reading s
    · rw [add_blocked hr]; exact hid
    · rw [add_free hr]
      refine ⟨h.others, fun x => .inr rfl, fun x => .inr rfl, fun x y => .inr rfl, fun x => ?_, fun x => .inr rfl⟩
      rcases List.mem_append.mp x with x | x
      · exact h.timer x
      · simp at x
  | remove =>
    simp only [step]; split
    · exact hid
    · exact ⟨h.others, fun x => .inl (h.tun (by have x : 0 < s.tunnels - 1 := x; omega)), fun x => .inl (h.pend x),
        fun x y => .inl (h.woken x y), h.timer, fun x => .inl (h.ok x)⟩
  | broadcast k =>
    simp only [step]; split
    · rename_i hk
      refine ⟨fun v hv => ?_, fun x => .inl (h.tun x), fun x => .inl (h.pend (List.mem_of_mem_eraseIdx x)), fun x y => ?_,
        fun x => h.timer (List.mem_of_mem_eraseIdx x), fun x => ?_⟩
      · show wake (s.pc v) = .idle
        rw [h.others v hv]; rfl
      · have y : s.expired w = false := y
        left
        cases hp : s.pending[k] with
        | tunnel => exact h.pend (by rw [← hp]; exact List.getElem_mem hk)
        | timer => rw [h.timer (by rw [← hp]; exact List.getElem_mem hk)] at y; cases y
      · have x : wake (s.pc w) = .returned true := x
        left
        refine h.ok ?_
        revert x
        cases s.pc w <;> simp [wake]
    · exact hid

theorem oinv_run : ∀ (es : List Ev) {s : St} {a : Prop} {w : Nat}, OInv s a w → (∀ v, .begin_ v ∈ es → v = w) →
    OInv (run s es) (a ∨ .add ∈ es) w
  | [], s, a, w, h, _ => ⟨h.others, fun x => .inl (h.tun x), fun x => .inl (h.pend x), fun x y => .inl (h.woken x y), h.timer, fun x => .inl (h.ok x)⟩
  | e :: es, s, a, w, h, he => by
    have h1 := oinv_step h e (fun v hv => he v (by rw [hv]; exact List.mem_cons_self))
    have h2 := oinv_run es h1 (fun v hv => he v (List.mem_cons_of_mem _ hv))
    have him : ((a ∨ e = .add) ∨ .add ∈ es) → (a ∨ .add ∈ e :: es) := by
      rintro ((x | x) | x)
      · exact .inl x
      · exact .inr (by rw [x]; exact List.mem_cons_self)
      · exact .inr (List.mem_cons_of_mem _ x)
    exact ⟨h2.others, fun x => him (h2.tun x), fun x => him (h2.pend x), fun x y => him (h2.woken x y), h2.timer, fun x => him (h2.ok x)⟩

/-- **C86**, if there is only one caller: it is told that the client is ready only if a tunnel was established at some
time. That the tunnel is still there, or was there during the call, is not guaranteed (next theorems). -/
theorem ready_means_some_tunnel_partial (es : List Ev) (w : Nat) (hone : ∀ v, .begin_ v ∈ es → v = w)
    (h : (run init es).pc w = .returned true) : .add ∈ es := by
  have h0 : OInv init False w := ⟨fun v _ => rfl, fun x => (by cases x), fun x => (by cases x), fun x => (by cases x),
    fun x => (by cases x), fun x => (by cases x)⟩
  rcases (oinv_run es h0 hone).ok h with h | h
  · exact h.elim
  · exact h

theorem not_reading {s : St} (h : ∀ w, s.pc w ≠ .locked ∧ s.pc w ≠ .toWait) : ¬ Reading s := by
  rintro ⟨w, h1 | h1⟩
  · exact (h w).1 h1
  · exact (h w).2 h1

/-- The state after a caller went to sleep. -/
theorem slept (s : St) (w : Nat) (h : s.pc w = .idle) (ht : s.tunnels = 0) :
    run s [.begin_ w, .look w, .register w] = { s with pc := upd (upd (upd s.pc w .locked) w .toWait) w .asleep } := by
  simp [run, step, h, ht, upd_self]

/-- **C86 is false of the code (1)**: a tunnel that is lost before the caller runs again is reported as ready. -/
theorem ready_without_tunnel :
    let s := run init [.begin_ 0, .look 0, .register 0, .add, .broadcast 0, .remove, .resume 0]
    s.pc 0 = .returned true ∧ s.tunnels = 0 := by
  have e1 := slept init 0 rfl rfl
  show (run init ([.begin_ 0, .look 0, .register 0] ++ [.add, .broadcast 0, .remove, .resume 0])).pc 0 = _ ∧
    (run init ([.begin_ 0, .look 0, .register 0] ++ [.add, .broadcast 0, .remove, .resume 0])).tunnels = 0
  rw [run_append, e1]
  have hr : ∀ (n : Nat) (p : List From), ¬ Reading { pc := upd (upd (upd init.pc 0 .locked) 0 .toWait) 0 .asleep, expired := init.expired, tunnels := n, pending := p } := by
    intro n p
    refine not_reading fun w => ?_
    by_cases e : w = 0
    · subst e; simp [upd_self]
    · simp [upd, e, init]
  have hr2 : ∀ (n : Nat) (p : List From), ¬ Reading { pc := fun w => wake (upd (upd (upd init.pc 0 .locked) 0 .toWait) 0 .asleep w), expired := init.expired, tunnels := n, pending := p } := by
    intro n p
    refine not_reading fun w => ?_
    by_cases e : w = 0
    · subst e; simp [upd_self, wake]
    · simp [upd, e, init, wake]
  have e2 : step { init with pc := upd (upd (upd init.pc 0 .locked) 0 .toWait) 0 .asleep } .add =
      { pc := upd (upd (upd init.pc 0 .locked) 0 .toWait) 0 .asleep, expired := init.expired, tunnels := 1, pending := [.tunnel] } :=
    add_free (hr _ _)
  have e3 : step { pc := upd (upd (upd init.pc 0 .locked) 0 .toWait) 0 .asleep, expired := init.expired, tunnels := 1, pending := [.tunnel] } (.broadcast 0) =
      { pc := fun w => wake (upd (upd (upd init.pc 0 .locked) 0 .toWait) 0 .asleep w), expired := init.expired, tunnels := 1, pending := [] } := by
    simp [step]
  have e4 := remove_free (hr2 1 [])
  simp only [run]
  rw [e2, e3, e4]
  simp [step, upd_self, wake, init]

/-- **C86 is false of the code (2)**: with two callers, the one with the longer timeout is told that the client is ready
when the shorter timeout ends, although there never was a tunnel. -/
theorem other_timeout_reports_ready :
    (run init [.begin_ 0, .look 0, .register 0, .begin_ 1, .look 1, .register 1, .fire 1, .broadcast 0, .resume 0]).pc 0 =
      .returned true := by
  simp [run, step, init, upd, wake]

/-- **C86 is false of the code (3)**: if the timer fires after the caller looked and before it joined the list, the caller
sleeps on: nothing but a tunnel (or another caller's timeout) wakes it. -/
theorem timeout_can_be_missed :
    let s := run init [.begin_ 0, .look 0, .fire 0, .broadcast 0, .register 0]
    s.pc 0 = .asleep ∧ s.expired 0 = true ∧ s.pending = [] := by
  simp [run, step, init, upd, wake]

/-- And then it sleeps for ever if no tunnel comes and nobody else calls. -/
theorem missed_timeout_sleeps_on (s : St) (w : Nat) (h : s.pc w = .asleep) (he : s.expired w = true) (hp : s.pending = [])
    (ho : ∀ v, v ≠ w → s.pc v = .idle) (es : List Ev) (hes : ∀ e ∈ es, e ≠ .add ∧ ∀ v, e ≠ .begin_ v) :
    (run s es).pc w = .asleep := by
  induction es generalizing s with
  | nil => exact h
  | cons e es ih =>
    have h1 := hes e List.mem_cons_self
    have hes' := fun x hx => hes x (List.mem_cons_of_mem _ hx)
    have hpc : ∀ v p, s.pc v = p → p ≠ .asleep → p ≠ .idle → False := by
      intro v p hv h2 h3
      by_cases e : v = w
      · subst e; rw [h] at hv; exact h2 hv.symm
      · rw [ho v e] at hv; exact h3 hv.symm
    have hs : step s e = s ∨ ∃ n, step s e = { s with tunnels := n } := by
      cases e with
      | begin_ v => exact absurd rfl (h1.2 v)
      | add => exact absurd rfl h1.1
      | look v => left; simp only [step]; rw [if_neg (fun hv => hpc v _ hv (by simp) (by simp))]
      | register v => left; simp only [step]; rw [if_neg (fun hv => hpc v _ hv (by simp) (by simp))]
      | resume v => left; simp only [step]; rw [if_neg (fun hv => hpc v _ hv (by simp) (by simp))]
      | fire v =>
        left; simp only [step]
        refine if_neg fun hv => ?_
        by_cases e : v = w
        · subst e; rw [he] at hv; cases hv.2.2
        · exact hv.1 (ho v e)
      | remove =>
        simp only [step]; split
        · exact .inl rfl
        · exact .inr ⟨_, rfl⟩
      | broadcast k => left; simp only [step]; rw [if_neg (by rw [hp]; simp)]
    show (run (step s e) es).pc w = .asleep
    rcases hs with hs | ⟨n, hs⟩
    · rw [hs]; exact ih s h he hp ho hes'
    · rw [hs]; exact ih _ h he hp ho hes'

/-- Non-vacuity: a caller sleeps, a tunnel comes, it returns. -/
example : (run init [.begin_ 0, .look 0, .register 0]).pc 0 = .asleep := by
  simp [run, step, init, upd]

/-- Non-vacuity: a timeout. -/
example : (run init [.begin_ 0, .look 0, .register 0, .fire 0, .broadcast 0, .resume 0]).pc 0 = .returned false := by
  simp [run, step, init, upd, wake]

end Verif.Client.Ready
