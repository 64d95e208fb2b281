import Verif.Common
set_option linter.unusedSimpArgs false
set_option linter.unusedVariables false
/-!
# C137, C138: the visitors of a tunnel when it ends, and when its client reloads its services
(libcs/server/conn.go:77-91, 117-130, 327-348, 490-521, 819-967 `readLoop`, 980-1101 `process`; libcs/server/client.go:105-290)

One tunnel of the server and any number of visitors. The goroutine of the tunnel and those of the visitors interleave; what is done under
`tunnelsRWMtx` or `tasksRWMtx` is one step. Writes do not block. An expired read deadline is delivered before the clock moves on.
-/
namespace Verif.Server.Visitors
open Verif

/-- Where the goroutine of the tunnel is. -/
inductive TPc where
  /-- reading the request for a tunnel -/
  | fresh
  /-- in `readLoop` -/
  | running
  /-- `readLoop` returns, its deferred function has not run; `reload`: it returns `true` (libcs/server/conn.go:879-883) -/
  | ended (reload : Bool)
  /-- the deferred function has closed the visitors it found (libcs/server/conn.go:822-830) -/
  | swept (reload : Bool)
  /-- `addTunnel` has failed (libcs/server/conn.go:500-503) -/
  | refused
  /-- `removeTunnel` was called (libcs/server/conn.go:331-335) -/
  | gone
  /-- the connection was closed (libcs/server/conn.go:121-122) -/
  | closed
deriving DecidableEq, Repr

/-- Where the goroutine of a visitor is. -/
inductive VPc where
  /-- `getTunnel` gave it the tunnel -/
  | picked
  /-- `addTask` was called (libcs/server/conn.go:983), the first frame is not written -/
  | added
  /-- waits for the visitor to send something (libcs/server/conn.go:1065) -/
  | reading
  /-- has something to send through the tunnel -/
  | got
  | gone
deriving DecidableEq, Repr

structure V where
  pc : VPc
  /-- the visitor's connection is open -/
  conn : Bool
  /-- when the read deadline was set -/
  since : Nat
  /-- for the specification: it was registered while the tunnel's reader worked -/
  early : Bool
deriving DecidableEq, Repr

structure St where
  t : TPc
  /-- the tunnel is in the client's set of tunnels -/
  listed : Bool
  vs : List V
  now : Nat
  /-- for the specification: when the connection was closed -/
  closedAt : Nat
deriving DecidableEq, Repr

def init : St := ⟨.fresh, false, [], 0, 0⟩

/-- The visitor is in the tunnel's set of tasks. -/
def V.registered (v : V) : Bool := match v.pc with | .added => true | .reading => true | .got => true | _ => false

/-- `Close` and the end of the visitor's goroutine. -/
def V.quit (v : V) : V := { v with pc := .gone, conn := false }

inductive Ev where
  /-- `addTunnel` succeeds -/
  | accept
  /-- `addTunnel` fails, before or after it has put the tunnel into the set (libcs/server/client.go:110-158, 158-177) -/
  | refuse (inserted : Bool)
  /-- a first close signal (libcs/server/conn.go:869-878) -/
  | closeSignal
  /-- `readLoop` returns -/
  | endRead (reload : Bool)
  | sweep
  | unlist
  | close
  /-- a visitor is given this tunnel -/
  | arrive
  | add (i : Nat)
  | write (i : Nat) (ok : Bool)
  /-- the visitor sends something, and it is read -/
  | send (i : Nat)
  /-- data of the service arrives for the visitor; `renew`: libcs/server/conn.go:962-968 -/
  | answer (i : Nat) (renew : Bool)
  /-- the service has closed the connection (libcs/server/conn.go:969-975) -/
  | serviceClose (i : Nat)
  /-- the visitor goes -/
  | leave (i : Nat)
  | expire (i : Nat)
  /-- a read from a closed connection -/
  | fail (i : Nat)
  | tick
deriving DecidableEq, Repr

/-- The next state, if the event can happen. `D`: the server's timeout, 0 for none. -/
def step (D : Nat) (s : St) : Ev → Option St
  | .accept =>
    match s.t with
    | .fresh => some { s with t := .running, listed := true }
    | .swept true => some { s with t := .running, listed := true }
    | _ => none
  | .refuse ins =>
    match s.t with
    | .fresh => some { s with t := .refused, listed := s.listed || ins }
    | .swept true => some { s with t := .refused, listed := s.listed || ins }
    | _ => none
  | .closeSignal => if s.t = .running then some { s with listed := false } else none
  | .endRead r => if s.t = .running then some { s with t := .ended r } else none
  | .sweep =>
    match s.t with
    | .ended r => some { s with t := .swept r, vs := s.vs.map (fun v => if v.registered then { v with conn := false } else v) }
    | _ => none
  | .unlist => if s.t = .swept false ∨ s.t = .refused then some { s with t := .gone, listed := false } else none
  | .close => if s.t = .gone then some { s with t := .closed, closedAt := s.now } else none
  | .arrive => if s.listed then some { s with vs := s.vs ++ [⟨.picked, true, s.now, false⟩] } else none
  | .add i =>
    match s.vs[i]? with
    | some v =>
      if v.pc = .picked then
        some { s with vs := s.vs.set i { v with pc := .added, early := decide (s.t = .running) } }
      else none
    | none => none
  | .write i ok =>
    match s.vs[i]? with
    | some v =>
      if v.pc = .added ∨ v.pc = .got then
        if ok then
          if s.t = .closed then none else some { s with vs := s.vs.set i { v with pc := .reading, since := s.now } }
        else some { s with vs := s.vs.set i v.quit }
      else none
    | none => none
  | .send i =>
    match s.vs[i]? with
    | some v => if v.pc = .reading ∧ v.conn = true then some { s with vs := s.vs.set i { v with pc := .got } } else none
    | none => none
  | .answer i renew =>
    match s.vs[i]? with
    | some v =>
      if s.t = .running ∧ v.registered = true then
        some { s with vs := s.vs.set i { v with since := if renew then s.now else v.since } }
      else none
    | none => none
  | .serviceClose i =>
    match s.vs[i]? with
    | some v => if s.t = .running ∧ v.registered = true then some { s with vs := s.vs.set i { v with conn := false } } else none
    | none => none
  | .leave i =>
    match s.vs[i]? with
    | some v => if v.pc = .reading then some { s with vs := s.vs.set i v.quit } else none
    | none => none
  | .expire i =>
    match s.vs[i]? with
    | some v => if v.pc = .reading ∧ 0 < D ∧ v.since + D ≤ s.now then some { s with vs := s.vs.set i v.quit } else none
    | none => none
  | .fail i =>
    match s.vs[i]? with
    | some v => if v.pc = .reading ∧ v.conn = false then some { s with vs := s.vs.set i v.quit } else none
    | none => none
  | .tick =>
    if D = 0 ∨ s.vs.all (fun v => decide (v.pc ≠ .reading ∨ s.now < v.since + D)) = true then some { s with now := s.now + 1 } else none

def run (D : Nat) : St → List Ev → Option St
  | s, [] => some s
  | s, e :: es => match step D s e with
    | some s' => run D s' es
    | none => none

def Reachable (D : Nat) (s : St) : Prop := ∃ es, run D init es = some s

/-! ## Specification -/

/-- The visitor is served by no one: it is connected and nothing will be sent to it. -/
def V.Stranded (v : V) : Prop := v.conn = true ∧ v.pc = .reading

/-! ## Proofs -/

theorem run_append {D : Nat} {s : St} (a b : List Ev) : run D s (a ++ b) = (run D s a).bind (fun s' => run D s' b) := by
  induction a generalizing s with
  | nil => rfl
  | cons e a ih =>
    simp only [List.cons_append, run]
    cases step D s e with
    | none => rfl
    | some s' => exact ih

theorem reach_ind {D : Nat} {P : St → Prop} (h0 : P init) (hs : ∀ s e s', P s → step D s e = some s' → P s') :
    ∀ s, Reachable D s → P s := by
  have key : ∀ (es : List Ev) (s s' : St), P s → run D s es = some s' → P s' := by
    intro es
    induction es with
    | nil => intro s s' h hr; simp [run] at hr; subst hr; exact h
    | cons e es ih =>
      intro s s' h hr
      simp only [run] at hr
      cases hst : step D s e with
      | none => rw [hst] at hr; cases hr
      | some s1 => rw [hst] at hr; exact ih s1 s' (hs s e s1 h hst) hr
  rintro s ⟨es, hr⟩
  exact key es init s h0 hr

/-- The tunnel's reader has not been swept up after. -/
def Live (t : TPc) : Prop := t = .running ∨ ∃ r, t = .ended r

/-- How the visitors change in a step: all are swept, one arrives, one changes, or nothing. -/
inductive Change (s s' : St) : Prop
  | same (h : s'.vs = s.vs) (hl : Live s.t → Live s'.t) (hc : s'.closedAt = s.closedAt ∨ s'.t = .closed ∧ s'.closedAt = s.now)
      (hk : s'.t = .closed → s.t = .closed ∨ s'.closedAt = s.now) (hk' : s.t = .closed → s'.t = .closed ∧ s'.closedAt = s.closedAt)
  | sweep (h : s'.vs = s.vs.map (fun v => if v.registered then { v with conn := false } else v)) (r : Bool) (ht : s.t = .ended r)
      (ht' : s'.t = .swept r) (hn : s'.now = s.now)
  | arrive (h : s'.vs = s.vs ++ [⟨.picked, true, s.now, false⟩]) (ht : s'.t = s.t) (hn : s'.now = s.now)
      (hk : s'.closedAt = s.closedAt)
  | one (i : Nat) (v v' : V) (hi : s.vs[i]? = some v) (h : s'.vs = s.vs.set i v') (ht : s'.t = s.t) (hn : s'.now = s.now)
      (hk : s'.closedAt = s.closedAt) (hc : v'.conn = true → v.conn = true) (hg : v'.pc = .gone → v'.conn = false)
      (he : v'.early = true → v'.conn = false ∨ v.early = true ∨ s.t = .running)
      (hp : v'.pc = .picked → v.pc = .picked ∧ v'.early = v.early)
      (hd : v'.pc = .reading → v'.conn = true → (v.pc = .reading ∧ v'.since = v.since) ∨ (v'.since = s.now ∧ s.t ≠ .closed))

theorem change {D : Nat} {s s' : St} {e : Ev} (h : step D s e = some s') : Change s s' := by
  cases e with
  | accept =>
    simp only [step] at h
    split at h <;> simp at h <;> subst h <;> rename_i ht <;>
      exact .same rfl (by simp [Live]) (.inl rfl) (by simp) (by simp [ht])
  | refuse ins =>
    simp only [step] at h
    split at h <;> simp at h <;> subst h <;> rename_i ht <;>
      exact .same rfl (by simp [Live, ht]) (.inl rfl) (by simp) (by simp [ht])
  | closeSignal =>
    simp only [step] at h
    split at h <;> simp at h; subst h; rename_i ht
    exact .same rfl (by simp) (.inl rfl) (by simp [ht]) (by simp [ht])
  | endRead r =>
    simp only [step] at h
    split at h <;> simp at h; subst h; rename_i ht
    exact .same rfl (by simp [Live]) (.inl rfl) (by simp) (by simp [ht])
  | sweep =>
    simp only [step] at h
    split at h
    · rename_i r hr; simp at h; subst h; exact .sweep rfl r hr rfl rfl
    · simp at h
  | unlist =>
    simp only [step] at h
    split at h <;> simp at h; subst h; rename_i ht
    exact .same rfl (by rcases ht with ht | ht <;> simp [Live, ht]) (.inl rfl) (by simp) (by rcases ht with ht | ht <;> simp [ht])
  | close =>
    simp only [step] at h
    split at h <;> simp at h; subst h; rename_i ht
    exact .same rfl (by simp [Live, ht]) (.inr ⟨rfl, rfl⟩) (by simp) (by simp [ht])
  | arrive =>
    simp only [step] at h
    split at h <;> simp at h; subst h; exact .arrive rfl rfl rfl rfl
  | add i =>
    simp only [step] at h
    split at h
    · rename_i v hv
      split at h
      · rename_i hp
        simp at h; subst h
        exact .one i v _ hv rfl rfl rfl rfl (fun x => x) (by simp) (fun x => .inr (.inr (by simpa using x))) (by simp) (by simp)
      · simp at h
    · simp at h
  | write i ok =>
    simp only [step] at h
    split at h
    · rename_i v hv
      split at h
      · rename_i hp
        cases ok with
        | true =>
          simp only [if_true] at h
          split at h
          · simp at h
          · rename_i hc
            simp at h; subst h
            exact .one i v _ hv rfl rfl rfl rfl (fun x => x) (by simp) (fun x => .inr (.inl x)) (by simp) (fun _ _ => .inr ⟨rfl, hc⟩)
        | false =>
          simp at h; subst h
          exact .one i v v.quit hv rfl rfl rfl rfl (by simp [V.quit]) (by simp [V.quit]) (fun x => .inl rfl) (by simp [V.quit]) (by simp [V.quit])
      · simp at h
    · simp at h
  | send i =>
    simp only [step] at h
    split at h
    · rename_i v hv
      split at h
      · rename_i hp
        simp at h; subst h
        exact .one i v _ hv rfl rfl rfl rfl (fun x => x) (by simp) (fun x => .inr (.inl x)) (by simp) (by simp)
      · simp at h
    · simp at h
  | answer i renew =>
    simp only [step] at h
    split at h
    · rename_i v hv
      split at h
      · rename_i hp
        have hng : v.pc ≠ .gone := by intro hx; have := hp.2; simp [V.registered, hx] at this
        simp at h; subst h
        refine .one i v _ hv rfl rfl rfl rfl (fun x => x) (fun x => absurd x hng) (fun x => .inr (.inl x)) (fun x => ⟨x, rfl⟩) (fun x _ => ?_)
        cases renew with
        | true => right; exact ⟨rfl, by rw [hp.1]; simp⟩
        | false => left; exact ⟨x, rfl⟩
      · simp at h
    · simp at h
  | serviceClose i =>
    simp only [step] at h
    split at h
    · rename_i v hv
      split at h
      · simp at h; subst h
        exact .one i v _ hv rfl rfl rfl rfl (by simp) (by simp) (fun x => .inl rfl) (fun x => ⟨x, rfl⟩) (by simp)
      · simp at h
    · simp at h
  | leave i =>
    simp only [step] at h
    split at h
    · rename_i v hv
      split at h
      · simp at h; subst h
        exact .one i v v.quit hv rfl rfl rfl rfl (by simp [V.quit]) (by simp [V.quit]) (fun x => .inl rfl) (by simp [V.quit]) (by simp [V.quit])
      · simp at h
    · simp at h
  | expire i =>
    simp only [step] at h
    split at h
    · rename_i v hv
      split at h
      · simp at h; subst h
        exact .one i v v.quit hv rfl rfl rfl rfl (by simp [V.quit]) (by simp [V.quit]) (fun x => .inl rfl) (by simp [V.quit]) (by simp [V.quit])
      · simp at h
    · simp at h
  | fail i =>
    simp only [step] at h
    split at h
    · rename_i v hv
      split at h
      · simp at h; subst h
        exact .one i v v.quit hv rfl rfl rfl rfl (by simp [V.quit]) (by simp [V.quit]) (fun x => .inl rfl) (by simp [V.quit]) (by simp [V.quit])
      · simp at h
    · simp at h
  | tick =>
    simp only [step] at h
    split at h <;> simp at h; subst h
    exact .same rfl (fun x => x) (.inl rfl) (fun x => .inl x) (fun x => ⟨x, rfl⟩)

/-- Once the reader has been swept up after, no visitor that was registered before is connected. -/
structure Inv (s : St) : Prop where
  early : ¬ Live s.t → ∀ v ∈ s.vs, v.early = true → v.conn = false
  fresh : ∀ v ∈ s.vs, v.pc = .picked → v.early = false
  gone : ∀ v ∈ s.vs, v.pc = .gone → v.conn = false

theorem inv_step {D : Nat} {s s' : St} {e : Ev} (hi : Inv s) (h : step D s e = some s') : Inv s' := by
  cases change h with
  | same hv hl _ _ _ =>
    refine ⟨?_, by rw [hv]; exact hi.fresh, by rw [hv]; exact hi.gone⟩
    rw [hv]
    exact fun hq => hi.early (fun x => hq (hl x))
  | sweep hv r h1 h2 _ =>
    refine ⟨fun _ => ?_, ?_, ?_⟩
    all_goals
      rw [hv]
      intro v hm
      obtain ⟨w, hw, rfl⟩ := List.mem_map.mp hm
    · intro he
      cases hr : w.registered with
      | true => simp
      | false =>
        simp only [hr, Bool.false_eq_true, if_false] at he ⊢
        cases hp : w.pc <;> simp [V.registered, hp] at hr
        · rw [hi.fresh w hw hp] at he; cases he
        · exact hi.gone w hw hp
    · cases hr : w.registered with
      | true => simp only [if_true]; exact hi.fresh w hw
      | false => simp only [Bool.false_eq_true, if_false]; exact hi.fresh w hw
    · cases hr : w.registered with
      | true => simp
      | false => simp only [Bool.false_eq_true, if_false]; exact hi.gone w hw
  | arrive hv ht _ _ =>
    refine ⟨?_, ?_, ?_⟩
    all_goals rw [hv]
    · rw [ht]
      intro hq w hw hwe
      rcases List.mem_append.mp hw with hw | hw
      · exact hi.early hq w hw hwe
      · simp at hw; subst hw; cases hwe
    · intro w hw hwp
      rcases List.mem_append.mp hw with hw | hw
      · exact hi.fresh w hw hwp
      · simp at hw; subst hw; rfl
    · intro w hw hwp
      rcases List.mem_append.mp hw with hw | hw
      · exact hi.gone w hw hwp
      · simp at hw; subst hw; cases hwp
  | one i v v' hiv hv ht hn hk hc hg he hp hd =>
    have hmem : v ∈ s.vs := List.mem_of_getElem? hiv
    refine ⟨?_, ?_, ?_⟩
    all_goals rw [hv]
    · rw [ht]
      intro hq w hw hwe
      rcases List.mem_or_eq_of_mem_set hw with hw | rfl
      · exact hi.early hq w hw hwe
      · rcases he hwe with h1 | h1 | h1
        · exact h1
        · cases hx : w.conn with
          | false => rfl
          | true => have := hc hx; rw [hi.early hq v hmem h1] at this; cases this
        · exact absurd (.inl h1) hq
    · intro w hw hwp
      rcases List.mem_or_eq_of_mem_set hw with hw | rfl
      · exact hi.fresh w hw hwp
      · obtain ⟨h1, h2⟩ := hp hwp
        rw [h2]; exact hi.fresh v hmem h1
    · intro w hw hwp
      rcases List.mem_or_eq_of_mem_set hw with hw | rfl
      · exact hi.gone w hw hwp
      · exact hg hwp

theorem inv_reach {D : Nat} {s : St} (h : Reachable D s) : Inv s :=
  reach_ind (D := D) (P := Inv) ⟨fun _ v hv => by simp [init] at hv, fun v hv => by simp [init] at hv, fun v hv => by simp [init] at hv⟩
    (fun s e s' hi hs => inv_step hi hs) s h

/-- **C137, who was there is disconnected** (partial): when the tunnel is gone, every visitor whose connection was registered while the
tunnel's reader worked is disconnected. Missing: visitors that were given the tunnel but were registered after the reader had ended
(`late_visitor_stays`), and those given a tunnel that is being refused (`visitor_of_refused_stays`). -/
theorem visitors_are_cut_partial (D : Nat) (s : St) (h : Reachable D s) (ht : s.t = .gone ∨ s.t = .closed) :
    ∀ v ∈ s.vs, v.early = true → v.conn = false :=
  (inv_reach h).early (by rcases ht with ht | ht <;> rw [ht] <;> rintro (h | ⟨r, h⟩) <;> cases h)

/-- Deadlines. -/
structure DInv (D : Nat) (s : St) : Prop where
  past : ∀ v ∈ s.vs, v.pc = .reading → v.conn = true → v.since ≤ s.now ∧ (0 < D → s.now ≤ v.since + D)
  closed : s.t = .closed → s.closedAt ≤ s.now ∧ ∀ v ∈ s.vs, v.pc = .reading → v.conn = true → v.since ≤ s.closedAt

theorem now_step {D : Nat} {s s' : St} {e : Ev} (h : step D s e = some s') :
    s'.now = s.now ∨ (s' = { s with now := s.now + 1 } ∧ (D = 0 ∨ ∀ v ∈ s.vs, v.pc = .reading → s.now < v.since + D)) := by
  cases e <;> simp only [step] at h
  case tick =>
    split at h
    · rename_i hg
      simp at h; subst h
      right
      refine ⟨rfl, ?_⟩
      rcases hg with hg | hg
      · exact .inl hg
      · right
        intro v hv hp
        have := List.all_eq_true.mp hg v hv
        simp only [decide_eq_true_eq] at this
        rcases this with h1 | h1
        · exact absurd hp h1
        · exact h1
    · simp at h
  all_goals
    left
    (repeat' split at h) <;> simp at h <;> subst h <;> rfl

theorem dinv_step {D : Nat} {s s' : St} {e : Ev} (hi : DInv D s) (h : step D s e = some s') : DInv D s' := by
  rcases now_step h with hn | ⟨rfl, hg⟩
  · cases change h with
    | same hv hl hc hk hk' =>
      refine ⟨by rw [hv, hn]; exact hi.past, fun ht => ?_⟩
      rw [hv, hn]
      rcases hk ht with h1 | h1
      · obtain ⟨_, h2⟩ := hk' h1
        rw [h2]; exact hi.closed h1
      · rw [h1]
        exact ⟨Nat.le_refl _, fun v hv hp hcn => (hi.past v hv hp hcn).1⟩
    | sweep hv r h1 h2 _ =>
      refine ⟨?_, fun ht => by rw [h2] at ht; cases ht⟩
      rw [hv, hn]
      intro v hm hp hcn
      obtain ⟨w, hw, rfl⟩ := List.mem_map.mp hm
      cases hr : w.registered with
      | true => simp [hr] at hcn
      | false =>
        simp only [hr, Bool.false_eq_true, if_false] at hp hcn ⊢
        exact hi.past w hw hp hcn
    | arrive hv ht _ hk =>
      refine ⟨?_, fun hc => ?_⟩
      · rw [hv, hn]
        intro v hm hp hcn
        rcases List.mem_append.mp hm with hm | hm
        · exact hi.past v hm hp hcn
        · simp at hm; subst hm; cases hp
      · rw [ht] at hc
        rw [hv, hn, hk]
        refine ⟨(hi.closed hc).1, ?_⟩
        intro v hm hp hcn
        rcases List.mem_append.mp hm with hm | hm
        · exact (hi.closed hc).2 v hm hp hcn
        · simp at hm; subst hm; cases hp
    | one i v v' hiv hv ht _ hk hc hg he hp hd =>
      have hmem : v ∈ s.vs := List.mem_of_getElem? hiv
      refine ⟨?_, fun hcl => ?_⟩
      · rw [hv, hn]
        intro w hw hwp hwc
        rcases List.mem_or_eq_of_mem_set hw with hw | rfl
        · exact hi.past w hw hwp hwc
        · rcases hd hwp hwc with ⟨h1, h2⟩ | ⟨h1, _⟩
          · rw [h2]; exact hi.past v hmem h1 (hc hwc)
          · rw [h1]; exact ⟨Nat.le_refl _, fun _ => Nat.le_add_right _ _⟩
      · rw [ht] at hcl
        rw [hv, hn, hk]
        refine ⟨(hi.closed hcl).1, ?_⟩
        intro w hw hwp hwc
        rcases List.mem_or_eq_of_mem_set hw with hw | rfl
        · exact (hi.closed hcl).2 w hw hwp hwc
        · rcases hd hwp hwc with ⟨h1, h2⟩ | ⟨_, h2⟩
          · rw [h2]; exact (hi.closed hcl).2 v hmem h1 (hc hwc)
          · exact absurd hcl h2
  · refine ⟨?_, fun ht => ?_⟩
    · intro v hv hp hc
      have h1 := hi.past v hv hp hc
      refine ⟨by dsimp only; omega, fun h0 => ?_⟩
      rcases hg with hg | hg
      · omega
      · have := hg v hv hp
        dsimp only; omega
    · have := hi.closed ht
      exact ⟨by dsimp only; omega, this.2⟩

theorem dinv_reach {D : Nat} {s : St} (h : Reachable D s) : DInv D s :=
  reach_ind (D := D) (P := DInv D) ⟨fun v hv => by simp [init] at hv, fun h => by simp [init] at h⟩
    (fun s e s' hi hs => dinv_step hi hs) s h

/-- **C137, at the latest after the timeout** (partial): if the server has a timeout, no visitor of a closed tunnel is left waiting for longer
than that, whoever it is. (Without a timeout: `stranded_for_ever`.) -/
theorem stranded_at_most_timeout_partial (D : Nat) (hD : 0 < D) (s : St) (h : Reachable D s) (ht : s.t = .closed) :
    ∀ v ∈ s.vs, v.Stranded → s.now ≤ s.closedAt + D := by
  rintro v hv ⟨hc, hp⟩
  have h1 := ((dinv_reach h).past v hv hp hc).2 hD
  have h2 := ((dinv_reach h).closed ht).2 v hv hp hc
  omega

/-- **C137, whoever sends something is disconnected**: through a closed tunnel nothing can be sent any more; a visitor that has something to
send is disconnected instead. -/
theorem sending_ends_it (D : Nat) (s : St) (i : Nat) (v : V) (ht : s.t = .closed) (hi : s.vs[i]? = some v)
    (hs : v.Stranded) : ∃ s1 s2, step D s (.send i) = some s1 ∧ step D s1 (.write i true) = none ∧
      step D s1 (.write i false) = some s2 ∧ ∃ v2, s2.vs[i]? = some v2 ∧ v2.conn = false ∧ v2.pc = .gone := by
  obtain ⟨hc, hp⟩ := hs
  have hlt : i < s.vs.length := (List.getElem?_eq_some_iff.mp hi).1
  have hg : (s.vs.set i { v with pc := .got })[i]? = some { v with pc := .got } := by
    rw [List.getElem?_set_self hlt]
  refine ⟨{ s with vs := s.vs.set i { v with pc := .got } },
    { s with vs := (s.vs.set i { v with pc := .got }).set i { v with pc := .gone, conn := false } }, ?_, ?_, ?_, ?_⟩
  · simp [step, hi, hp, hc]
  · simp only [step, hg, or_true, if_true, ht]
  · simp only [step, hg, or_true, if_true, Bool.false_eq_true, if_false, V.quit]
  · refine ⟨{ v with pc := .gone, conn := false }, ?_, rfl, rfl⟩
    exact List.getElem?_set_self (by simpa using hlt)

/-- A visitor is disconnected for its silence exactly when there is a time limit and it has passed. -/
theorem expires_iff (D : Nat) (s : St) (i : Nat) (v : V) (hi : s.vs[i]? = some v) (hp : v.pc = .reading) :
    (∃ s', step D s (.expire i) = some s') ↔ 0 < D ∧ v.since + D ≤ s.now := by
  simp only [step, hi, hp, true_and]
  constructor
  · rintro ⟨s', h⟩
    split at h
    · assumption
    · cases h
  · intro h; exact ⟨_, if_pos h⟩

/-- A visitor that goes is forgotten; of a connection that has been closed nothing is read any more. -/
theorem leaving_ends_it (D : Nat) (s : St) (i : Nat) (v : V) (hi : s.vs[i]? = some v) (hp : v.pc = .reading) :
    (∃ s', step D s (.leave i) = some s' ∧ ∃ v', s'.vs[i]? = some v' ∧ v'.conn = false ∧ v'.pc = .gone) ∧
    (v.conn = false → step D s (.send i) = none) := by
  have hlt : i < s.vs.length := (List.getElem?_eq_some_iff.mp hi).1
  refine ⟨⟨{ s with vs := s.vs.set i v.quit }, by simp [step, hi, hp], v.quit, ?_, rfl, rfl⟩, fun hc => by simp [step, hi, hp, hc]⟩
  exact List.getElem?_set_self hlt

/-- What a step does to one visitor. -/
theorem other_kept {D : Nat} {s s' : St} {e : Ev} {i : Nat} {v : V} (h : step D s e = some s') (hi : s.vs[i]? = some v) :
    (∃ v', s'.vs[i]? = some v') := by
  have hlt : i < s.vs.length := (List.getElem?_eq_some_iff.mp hi).1
  have : i < s'.vs.length := by
    cases change h with
    | same hv => rw [hv]; exact hlt
    | sweep hv => rw [hv, List.length_map]; exact hlt
    | arrive hv => rw [hv, List.length_append]; omega
    | one j w w' hj hv => rw [hv, List.length_set]; exact hlt
  exact ⟨_, List.getElem?_eq_getElem this⟩

theorem closed_stays {D : Nat} {s s' : St} {e : Ev} (h : step D s e = some s') (ht : s.t = .closed) : s'.t = .closed := by
  cases change h with
  | same hv hl hc hk hk' => exact (hk' ht).1
  | sweep hv r h1 => rw [ht] at h1; cases h1
  | arrive hv h1 => rw [h1]; exact ht
  | one i v v' hi hv h1 => rw [h1]; exact ht

/-- **C137 is false without a timeout**: a visitor that waits at a closed tunnel waits for ever: nothing but itself ends it. -/
theorem stranded_for_ever (es : List Ev) : ∀ (s s' : St) (i : Nat) (v : V), s.t = .closed → s.vs[i]? = some v → v.Stranded →
    Ev.send i ∉ es → Ev.leave i ∉ es → run 0 s es = some s' → s'.vs[i]? = some v := by
  induction es with
  | nil => intro s s' i v _ hi _ _ _ hr; simp [run] at hr; subst hr; exact hi
  | cons e es ih =>
    intro s s' i v ht hi hst hs hl hr
    simp only [run] at hr
    cases hstep : step 0 s e with
    | none => rw [hstep] at hr; cases hr
    | some s1 =>
      rw [hstep] at hr
      simp only [List.mem_cons, not_or] at hs hl
      refine ih s1 s' i v (closed_stays hstep ht) ?_ hst hs.2 hl.2 hr
      have hp := hst.2
      have hc := hst.1
      have hset : ∀ (j : Nat) (w : V), j ≠ i → (s.vs.set j w)[i]? = some v := by
        intro j w hj; rw [List.getElem?_set_ne hj]; exact hi
      cases e with
      | send j =>
        have hj : j ≠ i := by rintro rfl; exact hs.1 rfl
        simp only [step] at hstep
        (repeat' split at hstep) <;> simp at hstep <;> subst hstep
        exact hset j _ hj
      | leave j =>
        have hj : j ≠ i := by rintro rfl; exact hl.1 rfl
        simp only [step] at hstep
        (repeat' split at hstep) <;> simp at hstep <;> subst hstep
        exact hset j _ hj
      | accept => simp [step, ht] at hstep
      | refuse b => simp [step, ht] at hstep
      | closeSignal => simp [step, ht] at hstep
      | endRead r => simp [step, ht] at hstep
      | sweep => simp [step, ht] at hstep
      | unlist => simp [step, ht] at hstep
      | close => simp [step, ht] at hstep
      | arrive =>
        simp only [step] at hstep
        split at hstep <;> simp at hstep
        subst hstep
        have hlt : i < s.vs.length := (List.getElem?_eq_some_iff.mp hi).1
        dsimp only
        rw [List.getElem?_append_left hlt]; exact hi
      | add j =>
        have hj : j = i → False := by
          rintro rfl
          simp [step, hi, hp] at hstep
        simp only [step] at hstep
        (repeat' split at hstep) <;> simp at hstep <;> subst hstep
        exact hset j _ hj
      | write j ok =>
        have hj : j = i → False := by
          rintro rfl
          simp [step, hi, hp] at hstep
        simp only [step] at hstep
        (repeat' split at hstep) <;> simp at hstep <;> subst hstep <;> exact hset j _ hj
      | answer j b => simp only [step, ht] at hstep; split at hstep <;> simp at hstep
      | serviceClose j => simp only [step, ht] at hstep; split at hstep <;> simp at hstep
      | expire j => simp only [step] at hstep; split at hstep <;> simp at hstep
      | fail j =>
        have hj : j = i → False := by
          rintro rfl
          simp [step, hi, hp, hc] at hstep
        simp only [step] at hstep
        (repeat' split at hstep) <;> simp at hstep <;> subst hstep
        exact hset j _ hj
      | tick =>
        simp only [step] at hstep
        split at hstep <;> simp at hstep
        subst hstep; exact hi

/-- **C137 is false**: a visitor that was given the tunnel just before its reader ended, and is registered just after, stays connected
to nothing. (Whatever the timeout, it gets there.) -/
theorem late_visitor_stays (D : Nat) : ∃ s v, Reachable D s ∧ s.t = .closed ∧ s.listed = false ∧ s.vs[0]? = some v ∧ v.Stranded :=
  ⟨_, _, ⟨[.accept, .arrive, .endRead false, .sweep, .add 0, .write 0 true, .unlist, .close], rfl⟩, rfl, rfl, rfl, rfl, rfl⟩

/-- **C137 is false**: `addTunnel` puts the tunnel into the set before it finds that it must refuse it (a host taken by another client, a
port that cannot be opened), so a visitor can be given a tunnel that never worked; no one disconnects it. -/
theorem visitor_of_refused_stays (D : Nat) : ∃ s v, Reachable D s ∧ s.t = .closed ∧ s.vs[0]? = some v ∧ v.Stranded :=
  ⟨_, _, ⟨[.refuse true, .arrive, .add 0, .write 0 true, .unlist, .close], rfl⟩, rfl, rfl, rfl, rfl⟩

/-! ## C138 -/

/-- **C138 is false**: when a client reloads its services, every visitor connected through the tunnel is disconnected, whatever has
changed; the tunnel itself goes on. -/
theorem reload_cuts_visitors (D : Nat) (s : St) (ht : s.t = .running) :
    ∃ s1 s2, run D s [.endRead true, .sweep] = some s1 ∧ run D s1 [.accept] = some s2 ∧ s2.t = .running ∧
      ∀ (i : Nat) (v : V), s.vs[i]? = some v → v.registered = true → ∃ v' : V, s2.vs[i]? = some v' ∧ v'.conn = false := by
  refine ⟨{ s with t := .swept true, vs := s.vs.map (fun v => if v.registered then { v with conn := false } else v) },
    { s with t := .running, listed := true, vs := s.vs.map (fun v => if v.registered then { v with conn := false } else v) }, ?_, ?_, rfl, ?_⟩
  · simp [run, step, ht]
  · simp [run, step]
  · intro i v hi hr
    refine ⟨{ v with conn := false }, ?_, rfl⟩
    simp [hi, hr]

/-- **C138, otherwise a connection is cut only for a reason of its own** (partial): as long as the tunnel works and its client does not reload,
a visitor is disconnected only if it goes itself, its service closes, it was silent for too long, or the tunnel can no longer be written to. -/
theorem cut_only_for_a_reason_partial (D : Nat) (es : List Ev) : ∀ (s s' : St) (i : Nat) (v : V), s.t = .running →
    (∀ r, Ev.endRead r ∉ es) → s.vs[i]? = some v → v.conn = true →
    (Ev.leave i ∉ es ∧ Ev.serviceClose i ∉ es ∧ Ev.expire i ∉ es ∧ Ev.write i false ∉ es) → run D s es = some s' →
    ∃ v', s'.vs[i]? = some v' ∧ v'.conn = true := by
  induction es with
  | nil => intro s s' i v _ _ hi hc _ hr; simp [run] at hr; subst hr; exact ⟨v, hi, hc⟩
  | cons e es ih =>
    intro s s' i v ht hne hi hc ho hr
    simp only [run] at hr
    cases hstep : step D s e with
    | none => rw [hstep] at hr; cases hr
    | some s1 =>
      rw [hstep] at hr
      simp only [List.mem_cons, not_or] at ho hne
      obtain ⟨⟨o1, o1'⟩, ⟨o2, o2'⟩, ⟨o3, o3'⟩, ⟨o4, o4'⟩⟩ := ho
      have hset : ∀ (j : Nat) (w : V), (j = i → w.conn = true) → ∃ v', (s.vs.set j w)[i]? = some v' ∧ v'.conn = true := by
        intro j w hj
        by_cases hji : j = i
        · subst hji
          exact ⟨w, List.getElem?_set_self (List.getElem?_eq_some_iff.mp hi).1, hj rfl⟩
        · exact ⟨v, by rw [List.getElem?_set_ne hji]; exact hi, hc⟩
      have key : s1.t = .running ∧ ∃ v', s1.vs[i]? = some v' ∧ v'.conn = true := by
        cases e with
        | accept => simp [step, ht] at hstep
        | refuse b => simp [step, ht] at hstep
        | closeSignal => simp [step, ht] at hstep; subst hstep; exact ⟨rfl, v, hi, hc⟩
        | endRead r => exact absurd rfl (hne r).1
        | sweep => simp [step, ht] at hstep
        | unlist => simp [step, ht] at hstep
        | close => simp [step, ht] at hstep
        | arrive =>
          simp only [step] at hstep
          split at hstep <;> simp at hstep
          subst hstep
          have hlt : i < s.vs.length := (List.getElem?_eq_some_iff.mp hi).1
          exact ⟨ht, v, by dsimp only; rw [List.getElem?_append_left hlt]; exact hi, hc⟩
        | add j =>
          simp only [step] at hstep
          split at hstep
          · rename_i w hw
            split at hstep <;> simp at hstep
            subst hstep
            exact ⟨ht, hset j _ (by rintro rfl; rw [hi] at hw; simp at hw; subst hw; exact hc)⟩
          · simp at hstep
        | write j ok =>
          simp only [step] at hstep
          split at hstep
          · rename_i w hw
            split at hstep
            · cases ok with
              | true =>
                simp only [if_true] at hstep
                split at hstep <;> simp at hstep
                subst hstep
                exact ⟨ht, hset j _ (by rintro rfl; rw [hi] at hw; simp at hw; subst hw; exact hc)⟩
              | false =>
                simp at hstep; subst hstep
                exact ⟨ht, hset j _ (by rintro rfl; exact absurd rfl o4)⟩
            · simp at hstep
          · simp at hstep
        | send j =>
          simp only [step] at hstep
          split at hstep
          · rename_i w hw
            split at hstep <;> simp at hstep
            subst hstep
            exact ⟨ht, hset j _ (by rintro rfl; rw [hi] at hw; simp at hw; subst hw; exact hc)⟩
          · simp at hstep
        | answer j b =>
          simp only [step] at hstep
          split at hstep
          · rename_i w hw
            split at hstep <;> simp at hstep
            subst hstep
            exact ⟨ht, hset j _ (by rintro rfl; rw [hi] at hw; simp at hw; subst hw; exact hc)⟩
          · simp at hstep
        | serviceClose j =>
          simp only [step] at hstep
          (repeat' split at hstep) <;> simp at hstep <;> subst hstep
          exact ⟨ht, hset j _ (by rintro rfl; exact absurd rfl o2)⟩
        | leave j =>
          simp only [step] at hstep
          (repeat' split at hstep) <;> simp at hstep <;> subst hstep
          exact ⟨ht, hset j _ (by rintro rfl; exact absurd rfl o1)⟩
        | expire j =>
          simp only [step] at hstep
          (repeat' split at hstep) <;> simp at hstep <;> subst hstep
          exact ⟨ht, hset j _ (by rintro rfl; exact absurd rfl o3)⟩
        | fail j =>
          simp only [step] at hstep
          split at hstep
          · rename_i w hw
            split at hstep <;> simp at hstep
            rename_i hf
            subst hstep
            exact ⟨ht, hset j _ (by rintro rfl; rw [hi] at hw; simp at hw; subst hw; rw [hf.2] at hc; cases hc)⟩
          · simp at hstep
        | tick =>
          simp only [step] at hstep
          split at hstep <;> simp at hstep
          subst hstep; exact ⟨ht, v, hi, hc⟩
      obtain ⟨k1, v', k2, k3⟩ := key
      exact ih s1 s' i v' k1 (fun r => (hne r).2) k2 k3 ⟨o1', o2', o3', o4'⟩ hr

/-! ### Witnesses -/

/-- Two visitors, one of them served for a while; the tunnel ends, both are disconnected. -/
example : ∃ s, run 3 init [.accept, .arrive, .add 0, .write 0 true, .arrive, .tick, .answer 0 true, .send 0, .write 0 true, .add 1, .write 1 true,
      .tick, .tick, .endRead false, .sweep, .unlist, .close] = some s ∧ s.t = .closed ∧ s.vs.map V.conn = [false, false] ∧
      s.vs.map V.early = [true, true] := ⟨_, rfl, rfl, rfl, rfl⟩

/-- The hypotheses of `stranded_at_most_timeout_partial` are met, and its bound is reached: with a timeout of 2 the late visitor is there after two
ticks, and the clock does not go on before it is disconnected. -/
example : ∃ s, run 2 init [.accept, .arrive, .endRead false, .sweep, .add 0, .write 0 true, .unlist, .close, .tick, .tick] = some s ∧
    s.now = s.closedAt + 2 ∧ s.vs.map V.conn = [true] ∧ step 2 s .tick = none ∧
    ∃ s2, run 2 s [.expire 0, .tick] = some s2 ∧ s2.vs.map V.conn = [false] := ⟨_, rfl, rfl, rfl, rfl, _, rfl, rfl⟩

/-- A visitor with an exchange in progress survives everything but the reload. -/
example : ∃ s, run 0 init [.accept, .arrive, .add 0, .write 0 true, .answer 0 true, .tick, .send 0, .write 0 true, .closeSignal, .tick] = some s ∧
    s.t = .running ∧ s.vs.map V.conn = [true] ∧ ∃ s2, run 0 s [.endRead true, .sweep, .accept] = some s2 ∧ s2.vs.map V.conn = [false] :=
  ⟨_, rfl, rfl, rfl, _, rfl, rfl⟩

end Verif.Server.Visitors
