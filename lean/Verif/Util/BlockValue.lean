import Verif.Common
/-!
# C37: `BlockValue` (libcs/util/blockvalue.go)

Any number of goroutines (named by numbers) call `Set` and `Get`; every interleaving of the atomic
operations is a run. The trace records what each call did, oldest first.
-/
set_option linter.unusedSimpArgs false
set_option linter.unusedVariables false
namespace Verif.Util.BlockValue

/-- Where a goroutine is. -/
inductive PC where
  | idle
  /-- in `Set`, after `bv.v.Store(v)` -/
  | setLoad
  /-- in `Set`, `initialized` was read as false -/
  | setInit
  /-- in `Set`, after `initialized.Store(true)` -/
  | setClose
  /-- in `Get`, blocked in `<-bv.waitSet` -/
  | getWait
  /-- in `Get`, before `bv.v.Load()` -/
  | getV
deriving DecidableEq, Repr

def PC.inSet : PC → Bool
  | .setLoad | .setInit | .setClose => true
  | _ => false

/-- libcs/util/blockvalue.go:22-26: the three fields; `v = none` is the nil pointer. `panicked`: `close` of a
closed channel. -/
structure St where
  v : Option Nat
  initialized : Bool
  closed : Bool
  panicked : Bool
  pc : Nat → PC

/-- libcs/util/blockvalue.go:28-32 `NewBlockValue`. -/
def St.new : St := ⟨none, false, false, false, fun _ => .idle⟩

def setPc (s : St) (t : Nat) (p : PC) : Nat → PC := fun u => if u = t then p else s.pc u

/-- What an observer sees. -/
inductive Ev where
  /-- a `Set(x)` stored its value -/
  | store (t x : Nat)
  | setRet (t : Nat)
  | getRet (t : Nat) (r : Option Nat)
deriving DecidableEq, Repr

/-- One atomic step. -/
inductive Step : St → List Ev → St → Prop where
  /-- blockvalue.go:42 -/
  | setStore (s : St) (t x : Nat) (h : s.pc t = .idle) :
      Step s [.store t x] { s with v := some x, pc := setPc s t .setLoad }
  /-- blockvalue.go:43-45 -/
  | setLoadTrue (s : St) (t : Nat) (h : s.pc t = .setLoad) (hi : s.initialized = true) :
      Step s [.setRet t] { s with pc := setPc s t .idle }
  | setLoadFalse (s : St) (t : Nat) (h : s.pc t = .setLoad) (hi : s.initialized = false) :
      Step s [] { s with pc := setPc s t .setInit }
  /-- blockvalue.go:46 -/
  | setInit (s : St) (t : Nat) (h : s.pc t = .setInit) :
      Step s [] { s with initialized := true, pc := setPc s t .setClose }
  /-- blockvalue.go:47 -/
  | setClose (s : St) (t : Nat) (h : s.pc t = .setClose) (hc : s.closed = false) :
      Step s [.setRet t] { s with closed := true, pc := setPc s t .idle }
  | setPanic (s : St) (t : Nat) (h : s.pc t = .setClose) (hc : s.closed = true) :
      Step s [] { s with panicked := true, pc := setPc s t .idle }
  /-- blockvalue.go:35 -/
  | getLoadTrue (s : St) (t : Nat) (h : s.pc t = .idle) (hi : s.initialized = true) :
      Step s [] { s with pc := setPc s t .getV }
  | getLoadFalse (s : St) (t : Nat) (h : s.pc t = .idle) (hi : s.initialized = false) :
      Step s [] { s with pc := setPc s t .getWait }
  /-- blockvalue.go:36: receiving from the closed channel -/
  | getWake (s : St) (t : Nat) (h : s.pc t = .getWait) (hc : s.closed = true) :
      Step s [] { s with pc := setPc s t .getV }
  /-- blockvalue.go:38 -/
  | getV (s : St) (t : Nat) (h : s.pc t = .getV) :
      Step s [.getRet t s.v] { s with pc := setPc s t .idle }

/-- All interleavings. -/
inductive Reach : List Ev → St → Prop where
  | new : Reach [] .new
  | step (tr evs : List Ev) (s s' : St) (h : Reach tr s) (hs : Step s evs s') : Reach (tr ++ evs) s'

/-- Interleavings in which no `Set` starts while another one is running (the only use in the code base:
one `Set` per data channel, libcs/client/peer.go:577). -/
inductive ReachX : List Ev → St → Prop where
  | new : ReachX [] .new
  | step (tr evs : List Ev) (s s' : St) (h : ReachX tr s) (hs : Step s evs s')
      (hx : ∀ t x, evs = [.store t x] → ∀ u, (s.pc u).inSet = false) : ReachX (tr ++ evs) s'

theorem ReachX.reach {tr : List Ev} {s : St} (h : ReachX tr s) : Reach tr s := by
  induction h with
  | new => exact .new
  | step tr evs s s' _ hs _ ih => exact .step tr evs s s' ih hs

/-! ## Specification -/

/-- The value of the most recent `Set` in a trace. -/
def lastStored : List Ev → Option Nat
  | [] => none
  | .store _ x :: r => (lastStored r).orElse (fun _ => some x)
  | _ :: r => lastStored r

theorem lastStored_append (a b : List Ev) :
    lastStored (a ++ b) = (lastStored b).orElse (fun _ => lastStored a) := by
  induction a with
  | nil => cases h : lastStored b <;> simp [lastStored, h]
  | cons e a ih =>
    cases e with
    | store t x =>
      simp only [List.cons_append, lastStored, ih]
      cases lastStored b <;> simp
    | _ => simpa [lastStored] using ih

theorem lastStored_mem {tr : List Ev} {x : Nat} (h : lastStored tr = some x) : ∃ t, Ev.store t x ∈ tr := by
  induction tr with
  | nil => simp [lastStored] at h
  | cons e tr ih =>
    cases e with
    | store t y =>
      simp only [lastStored] at h
      cases hl : lastStored tr with
      | none => simp [hl] at h; subst h; exact ⟨t, by simp⟩
      | some z => simp [hl] at h; subst h; obtain ⟨u, hu⟩ := ih hl; exact ⟨u, by simp [hu]⟩
    | _ =>
      simp only [lastStored] at h
      obtain ⟨u, hu⟩ := ih h; exact ⟨u, by simp [hu]⟩

/-! ## Invariant -/

structure Inv (tr : List Ev) (s : St) : Prop where
  hv : s.v = lastStored tr
  hi : s.initialized = true → s.v ≠ none
  hc : s.closed = true → s.initialized = true
  hpc : ∀ t, (s.pc t).inSet = true ∨ s.pc t = .getV → s.v ≠ none
  hclose : ∀ t, s.pc t = .setClose → s.initialized = true
  /-- somebody is going to close the channel -/
  hlive : s.initialized = true → s.closed = true ∨ ∃ t, s.pc t = .setClose
  /-- only an initialised value or a running `Set` explains a stored value -/
  hstart : s.v ≠ none → s.initialized = true ∨ ∃ t, (s.pc t).inSet = true

theorem setPc_same (s : St) (t : Nat) (p : PC) : setPc s t p t = p := by simp [setPc]
theorem setPc_other (s : St) (t u : Nat) (p : PC) (h : u ≠ t) : setPc s t p u = s.pc u := by simp [setPc, h]

theorem Reach.inv {tr : List Ev} {s : St} (h : Reach tr s) : Inv tr s := by
  induction h with
  | new => exact ⟨rfl, by simp [St.new], by simp [St.new], by simp [St.new, PC.inSet], by simp [St.new], by simp [St.new], by simp [St.new]⟩
  | step tr evs s s' _ hs ih =>
    cases hs with
    | setStore t x h =>
      refine ⟨?_, by simp, ih.hc, by simp, ?_, ?_, ?_⟩
      · simp [lastStored_append, lastStored]
      · intro u hu
        by_cases hut : u = t
        · subst hut; simp [setPc_same] at hu
        · simp only [setPc_other _ _ _ _ hut] at hu; exact ih.hclose u hu
      · intro hi
        rcases ih.hlive hi with hc | ⟨u, hu⟩
        · exact Or.inl hc
        · refine Or.inr ⟨u, ?_⟩
          have : u ≠ t := by intro e; rw [e, h] at hu; simp at hu
          simp only [setPc_other _ _ _ _ this]; exact hu
      · intro _; exact Or.inr ⟨t, by simp [setPc_same, PC.inSet]⟩
    | setLoadTrue t h hi =>
      refine ⟨by simpa [lastStored_append, lastStored] using ih.hv, ih.hi, ih.hc, ?_, ?_, ?_, fun _ => Or.inl hi⟩
      · intro u hu; exact ih.hi hi
      · intro u hu; exact hi
      · intro _
        rcases ih.hlive hi with hc | ⟨u, hu⟩
        · exact Or.inl hc
        · have : u ≠ t := by intro e; rw [e, h] at hu; simp at hu
          exact Or.inr ⟨u, by simp only [setPc_other _ _ _ _ this]; exact hu⟩
    | setLoadFalse t h hi =>
      refine ⟨by simpa using ih.hv, ih.hi, ih.hc, ?_, ?_, ?_, ?_⟩
      · intro u hu; exact ih.hpc t (Or.inl (by simp [h, PC.inSet]))
      · intro u hu
        by_cases hut : u = t
        · subst hut; simp [setPc_same] at hu
        · simp only [setPc_other _ _ _ _ hut] at hu; exact ih.hclose u hu
      · intro hi'; simp [hi] at hi'
      · intro _; exact Or.inr ⟨t, by simp [setPc_same, PC.inSet]⟩
    | setInit t h =>
      have hv := ih.hpc t (Or.inl (by simp [h, PC.inSet]))
      refine ⟨by simpa using ih.hv, fun _ => hv, fun _ => rfl, fun _ _ => hv, fun _ _ => rfl, ?_, fun _ => Or.inl rfl⟩
      intro _; exact Or.inr ⟨t, by simp [setPc_same]⟩
    | setClose t h hc =>
      have hi := ih.hclose t h
      refine ⟨by simpa [lastStored_append, lastStored] using ih.hv, ih.hi, fun _ => hi, fun _ _ => ih.hi hi, fun _ _ => hi, fun _ => Or.inl rfl, fun _ => Or.inl hi⟩
    | setPanic t h hc =>
      have hi := ih.hc hc
      exact ⟨by simpa using ih.hv, ih.hi, ih.hc, fun _ _ => ih.hi hi, fun _ _ => hi, fun _ => Or.inl hc, fun _ => Or.inl hi⟩
    | getLoadTrue t h hi =>
      refine ⟨by simpa using ih.hv, ih.hi, ih.hc, fun _ _ => ih.hi hi, fun _ _ => hi, ?_, fun _ => Or.inl hi⟩
      intro _
      rcases ih.hlive hi with hc | ⟨u, hu⟩
      · exact Or.inl hc
      · have : u ≠ t := by intro e; rw [e, h] at hu; simp at hu
        exact Or.inr ⟨u, by simp only [setPc_other _ _ _ _ this]; exact hu⟩
    | getLoadFalse t h hi =>
      refine ⟨by simpa using ih.hv, ih.hi, ih.hc, ?_, ?_, ?_, ?_⟩
      · intro u hu
        by_cases hut : u = t
        · subst hut; simp [setPc_same, PC.inSet] at hu
        · simp only [setPc_other _ _ _ _ hut] at hu; exact ih.hpc u hu
      · intro u hu
        by_cases hut : u = t
        · subst hut; simp [setPc_same] at hu
        · simp only [setPc_other _ _ _ _ hut] at hu; exact ih.hclose u hu
      · intro hi'; simp [hi] at hi'
      · intro hv
        rcases ih.hstart hv with hi' | ⟨u, hu⟩
        · exact Or.inl hi'
        · have : u ≠ t := by intro e; rw [e, h] at hu; simp [PC.inSet] at hu
          exact Or.inr ⟨u, by simp only [setPc_other _ _ _ _ this]; exact hu⟩
    | getWake t h hc =>
      have hi := ih.hc hc
      exact ⟨by simpa using ih.hv, ih.hi, ih.hc, fun _ _ => ih.hi hi, fun _ _ => hi, fun _ => Or.inl hc, fun _ => Or.inl hi⟩
    | getV t h =>
      refine ⟨by simpa [lastStored_append, lastStored] using ih.hv, ih.hi, ih.hc, ?_, ?_, ?_, ?_⟩
      · intro u hu
        by_cases hut : u = t
        · subst hut; simp [setPc_same, PC.inSet] at hu
        · simp only [setPc_other _ _ _ _ hut] at hu; exact ih.hpc u hu
      · intro u hu
        by_cases hut : u = t
        · subst hut; simp [setPc_same] at hu
        · simp only [setPc_other _ _ _ _ hut] at hu; exact ih.hclose u hu
      · intro hi
        rcases ih.hlive hi with hc | ⟨u, hu⟩
        · exact Or.inl hc
        · have : u ≠ t := by intro e; rw [e, h] at hu; simp at hu
          exact Or.inr ⟨u, by simp only [setPc_other _ _ _ _ this]; exact hu⟩
      · intro hv
        rcases ih.hstart hv with hi' | ⟨u, hu⟩
        · exact Or.inl hi'
        · have : u ≠ t := by intro e; rw [e, h] at hu; simp [PC.inSet] at hu
          exact Or.inr ⟨u, by simp only [setPc_other _ _ _ _ this]; exact hu⟩

/-! ## C37 -/

/-- C37 (values): whatever `Get` returns is the value of the most recent `Set` before it; in particular it
never returns before a value was set and never returns nil. -/
theorem get_returns_latest {pre post : List Ev} {t : Nat} {r : Option Nat} {s : St}
    (h : Reach (pre ++ .getRet t r :: post) s) : ∃ x u, r = some x ∧ lastStored pre = some x ∧ Ev.store u x ∈ pre := by
  generalize htr : pre ++ .getRet t r :: post = tr at h
  induction h generalizing post with
  | new => simp at htr
  | step tr evs s s' hr hs ih =>
    -- either the event is in the older trace, or it is the new one
    by_cases hl : pre.length < tr.length
    · have h1 : ∃ post', pre ++ .getRet t r :: post' = tr := by
        have : tr = (pre ++ .getRet t r :: post).take tr.length := by rw [htr]; simp
        rw [List.take_append, List.take_of_length_le (by omega)] at this
        obtain ⟨k, hk⟩ : ∃ k, tr.length - pre.length = k + 1 := ⟨tr.length - pre.length - 1, by omega⟩
        rw [hk, List.take_succ_cons] at this
        exact ⟨_, this.symm⟩
      obtain ⟨post', hp⟩ := h1
      exact ih hp
    · have hiv := hr.inv
      -- every step emits at most one event
      have hlen : evs.length ≤ 1 := by cases hs <;> simp
      have h2 := congrArg List.length htr
      simp only [List.length_append, List.length_cons] at h2
      have h3 : pre.length = tr.length := by omega
      have h4 := List.append_inj htr h3
      obtain ⟨h5, h6⟩ := h4
      have hpost : post = [] := by
        rw [← h6] at hlen; simp at hlen; exact hlen
      subst hpost h5
      cases hs with
      | getV t' h =>
        simp only [List.cons.injEq, Ev.getRet.injEq, and_true] at h6
        have hne := hiv.hpc t' (Or.inr h)
        have hv := hiv.hv
        cases hsv : s.v with
        | none => exact absurd hsv hne
        | some x =>
          rw [hsv] at hv
          obtain ⟨u, hu⟩ := lastStored_mem hv.symm
          exact ⟨x, u, by rw [h6.2, hsv], hv.symm, hu⟩
      | _ => simp at h6

/-- C37 (release): once a value was set and no `Set` is in progress, the channel is closed, so no `Get`
stays blocked: each of them can take its steps and return. -/
theorem getters_released {tr : List Ev} {s : St} (h : Reach tr s) (hset : ∃ t x, Ev.store t x ∈ tr)
    (hdone : ∀ t, (s.pc t).inSet = false) (t : Nat) (hw : s.pc t = .getWait) :
    ∃ s1, Step s [] s1 ∧ ∃ r s2, Step s1 [.getRet t r] s2 := by
  have hi := h.inv
  have hv : s.v ≠ none := by
    rw [hi.hv]
    obtain ⟨u, x, hm⟩ := hset
    intro hn
    have key : ∀ tr : List Ev, Ev.store u x ∈ tr → lastStored tr ≠ none := by
      intro tr
      induction tr with
      | nil => simp
      | cons e tr ih =>
        intro hm
        cases e with
        | store a b => simp only [lastStored]; cases lastStored tr <;> simp
        | _ => simp only [lastStored]; simp at hm; exact ih hm
    exact key tr hm hn
  have hini : s.initialized = true := by
    rcases hi.hstart hv with h1 | ⟨u, hu⟩
    · exact h1
    · rw [hdone u] at hu; simp at hu
  have hc : s.closed = true := by
    rcases hi.hlive hini with h1 | ⟨u, hu⟩
    · exact h1
    · have := hdone u; rw [hu] at this; simp [PC.inSet] at this
  exact ⟨_, .getWake s t hw hc, _, _, .getV _ t (by simp [setPc_same])⟩

/-- A `Get` that starts after a completed `Set` does not block. -/
theorem get_after_set_does_not_block {tr : List Ev} {s : St} (h : Reach tr s) (t u : Nat) (hr : Ev.setRet u ∈ tr)
    (hp : s.pc t = .idle) : ∃ s1, Step s [] s1 ∧ s1.pc t = .getV := by
  have hini : s.initialized = true := by
    clear hp
    induction h with
    | new => simp at hr
    | step tr evs s s' h0 hs ih =>
      rcases List.mem_append.1 hr with hr | hr
      · have := ih hr
        cases hs <;> first | exact this | rfl
      · cases hs with
        | setLoadTrue t h hi => exact hi
        | setClose t h hc => exact h0.inv.hclose t h
        | _ => simp at hr
  exact ⟨_, .getLoadTrue s t hp hini, by simp [setPc_same]⟩

/-- C37 (no panic), for uses in which `Set`s do not overlap: no panic, however often a value is set. -/
theorem sets_never_panic_partial {tr : List Ev} {s : St} (h : ReachX tr s) : s.panicked = false := by
  have key : ∀ {tr s}, ReachX tr s → s.panicked = false ∧
      (∀ t u, (s.pc t).inSet = true → (s.pc u).inSet = true → t = u) ∧
      (s.closed = true → ∀ t, s.pc t ≠ .setInit ∧ s.pc t ≠ .setClose) ∧
      (s.initialized = true → ∀ t, s.pc t ≠ .setInit) := by
    intro tr s h
    induction h with
    | new => simp [St.new, PC.inSet]
    | step tr evs s s' hr hs hx ih =>
      obtain ⟨h1, h2, h3, h4⟩ := ih
      have hi := hr.reach.inv
      cases hs with
      | setStore t x h =>
        have hn := hx t x rfl
        refine ⟨h1, ?_, ?_, ?_⟩
        · intro a b ha hb
          by_cases hat : a = t
          · by_cases hbt : b = t
            · rw [hat, hbt]
            · simp only [setPc_other _ _ _ _ hbt, hn b] at hb; simp at hb
          · simp only [setPc_other _ _ _ _ hat, hn a] at ha; simp at ha
        · intro _ a
          by_cases hat : a = t
          · subst hat; simp [setPc_same]
          · simp only [setPc_other _ _ _ _ hat]
            have := hn a
            exact ⟨fun e => by simp [e, PC.inSet] at this, fun e => by simp [e, PC.inSet] at this⟩
        · intro _ a
          by_cases hat : a = t
          · subst hat; simp [setPc_same]
          · simp only [setPc_other _ _ _ _ hat]
            have := hn a
            exact fun e => by simp [e, PC.inSet] at this
      | setLoadTrue t h hi' =>
        refine ⟨h1, ?_, ?_, ?_⟩
        · intro a b ha hb
          have hat : a ≠ t := by intro e; subst e; simp [setPc_same, PC.inSet] at ha
          have hbt : b ≠ t := by intro e; subst e; simp [setPc_same, PC.inSet] at hb
          simp only [setPc_other _ _ _ _ hat] at ha
          simp only [setPc_other _ _ _ _ hbt] at hb
          exact h2 a b ha hb
        · intro hc a
          by_cases hat : a = t
          · subst hat; simp [setPc_same]
          · simp only [setPc_other _ _ _ _ hat]; exact h3 hc a
        · intro hi2 a
          by_cases hat : a = t
          · subst hat; simp [setPc_same]
          · simp only [setPc_other _ _ _ _ hat]; exact h4 hi2 a
      | setLoadFalse t h hi' =>
        refine ⟨h1, ?_, ?_, ?_⟩
        · intro a b ha hb
          have e1 : (s.pc a).inSet = true := by
            by_cases hat : a = t
            · rw [hat, h]; rfl
            · simpa only [setPc_other _ _ _ _ hat] using ha
          have e2 : (s.pc b).inSet = true := by
            by_cases hbt : b = t
            · rw [hbt, h]; rfl
            · simpa only [setPc_other _ _ _ _ hbt] using hb
          exact h2 a b e1 e2
        · intro hc; have := hi.hc hc; simp [hi'] at this
        · intro hi2; simp [hi'] at hi2
      | setInit t h =>
        refine ⟨h1, ?_, ?_, ?_⟩
        · intro a b ha hb
          have e1 : (s.pc a).inSet = true := by
            by_cases hat : a = t
            · rw [hat, h]; rfl
            · simpa only [setPc_other _ _ _ _ hat] using ha
          have e2 : (s.pc b).inSet = true := by
            by_cases hbt : b = t
            · rw [hbt, h]; rfl
            · simpa only [setPc_other _ _ _ _ hbt] using hb
          exact h2 a b e1 e2
        · intro hc; exact absurd h (h3 hc t).1
        · intro _ a
          by_cases hat : a = t
          · subst hat; simp [setPc_same]
          · simp only [setPc_other _ _ _ _ hat]
            intro e
            exact hat (h2 a t (by simp [e, PC.inSet]) (by simp [h, PC.inSet]))
      | setClose t h hc =>
        have hno : ∀ a, a ≠ t → (s.pc a).inSet = false := by
          intro a hat
          cases hb : (s.pc a).inSet
          · rfl
          · exact absurd (h2 a t hb (by simp [h, PC.inSet])) hat
        refine ⟨h1, ?_, ?_, ?_⟩
        · intro a b ha hb
          have hat : a ≠ t := by intro e; subst e; simp [setPc_same, PC.inSet] at ha
          simp only [setPc_other _ _ _ _ hat, hno a hat] at ha; simp at ha
        · intro _ a
          by_cases hat : a = t
          · subst hat; simp [setPc_same]
          · simp only [setPc_other _ _ _ _ hat]
            have := hno a hat
            exact ⟨fun e => by simp [e, PC.inSet] at this, fun e => by simp [e, PC.inSet] at this⟩
        · intro hi2 a
          by_cases hat : a = t
          · subst hat; simp [setPc_same]
          · simp only [setPc_other _ _ _ _ hat]; exact h4 hi2 a
      | setPanic t h hc => exact absurd h (h3 hc t).2
      | getLoadTrue t h hi' =>
        refine ⟨h1, ?_, ?_, ?_⟩
        · intro a b ha hb
          have hat : a ≠ t := by intro e; subst e; simp [setPc_same, PC.inSet] at ha
          have hbt : b ≠ t := by intro e; subst e; simp [setPc_same, PC.inSet] at hb
          simp only [setPc_other _ _ _ _ hat] at ha
          simp only [setPc_other _ _ _ _ hbt] at hb
          exact h2 a b ha hb
        · intro hc a
          by_cases hat : a = t
          · subst hat; simp [setPc_same]
          · simp only [setPc_other _ _ _ _ hat]; exact h3 hc a
        · intro hi2 a
          by_cases hat : a = t
          · subst hat; simp [setPc_same]
          · simp only [setPc_other _ _ _ _ hat]; exact h4 hi2 a
      | getLoadFalse t h hi' =>
        refine ⟨h1, ?_, ?_, ?_⟩
        · intro a b ha hb
          have hat : a ≠ t := by intro e; subst e; simp [setPc_same, PC.inSet] at ha
          have hbt : b ≠ t := by intro e; subst e; simp [setPc_same, PC.inSet] at hb
          simp only [setPc_other _ _ _ _ hat] at ha
          simp only [setPc_other _ _ _ _ hbt] at hb
          exact h2 a b ha hb
        · intro hc a
          by_cases hat : a = t
          · subst hat; simp [setPc_same]
          · simp only [setPc_other _ _ _ _ hat]; exact h3 hc a
        · intro hi2 a
          by_cases hat : a = t
          · subst hat; simp [setPc_same]
          · simp only [setPc_other _ _ _ _ hat]; exact h4 hi2 a
      | getWake t h hc =>
        refine ⟨h1, ?_, ?_, ?_⟩
        · intro a b ha hb
          have hat : a ≠ t := by intro e; subst e; simp [setPc_same, PC.inSet] at ha
          have hbt : b ≠ t := by intro e; subst e; simp [setPc_same, PC.inSet] at hb
          simp only [setPc_other _ _ _ _ hat] at ha
          simp only [setPc_other _ _ _ _ hbt] at hb
          exact h2 a b ha hb
        · intro hc a
          by_cases hat : a = t
          · subst hat; simp [setPc_same]
          · simp only [setPc_other _ _ _ _ hat]; exact h3 hc a
        · intro hi2 a
          by_cases hat : a = t
          · subst hat; simp [setPc_same]
          · simp only [setPc_other _ _ _ _ hat]; exact h4 hi2 a
      | getV t h =>
        refine ⟨h1, ?_, ?_, ?_⟩
        · intro a b ha hb
          have hat : a ≠ t := by intro e; subst e; simp [setPc_same, PC.inSet] at ha
          have hbt : b ≠ t := by intro e; subst e; simp [setPc_same, PC.inSet] at hb
          simp only [setPc_other _ _ _ _ hat] at ha
          simp only [setPc_other _ _ _ _ hbt] at hb
          exact h2 a b ha hb
        · intro hc a
          by_cases hat : a = t
          · subst hat; simp [setPc_same]
          · simp only [setPc_other _ _ _ _ hat]; exact h3 hc a
        · intro hi2 a
          by_cases hat : a = t
          · subst hat; simp [setPc_same]
          · simp only [setPc_other _ _ _ _ hat]; exact h4 hi2 a
  exact (key h).1

/-- Run a list of steps chosen by a scheduler (used for concrete runs). -/
theorem Reach.trans1 {tr : List Ev} {s s' : St} {evs : List Ev} (h : Reach tr s) (hs : Step s evs s') :
    Reach (tr ++ evs) s' := .step tr evs s s' h hs

/-- C37 is violated when two `Set`s overlap: both see "not initialised" and both close the channel, and
closing a closed channel panics. -/
theorem concurrent_sets_panic : ∃ s, Reach [.store 0 10, .store 1 11, .setRet 0] s ∧ s.panicked = true := by
  have r0 := Reach.new
  have r1 := r0.trans1 (.setStore _ 0 10 rfl)
  have r2 := r1.trans1 (.setStore _ 1 11 rfl)
  have r3 := r2.trans1 (.setLoadFalse _ 0 rfl rfl)
  have r4 := r3.trans1 (.setLoadFalse _ 1 rfl rfl)
  have r5 := r4.trans1 (.setInit _ 0 rfl)
  have r6 := r5.trans1 (.setInit _ 1 rfl)
  have r7 := r6.trans1 (.setClose _ 0 rfl rfl)
  have r8 := r7.trans1 (.setPanic _ 1 rfl rfl)
  exact ⟨_, r8, rfl⟩

/-- Non-vacuity of the theorems above: a reader blocks, a value is set, set again, the reader wakes and
gets the second value; this run has no overlapping `Set`s. -/
theorem demo_run : ∃ s, ReachX [.store 0 10, .setRet 0, .store 0 20, .setRet 0, .getRet 1 (some 20)] s := by
  have hx : ∀ (s : St) (t x : Nat) , (∀ u, (s.pc u).inSet = false) → ∀ t' x', [Ev.store t x] = [.store t' x'] → ∀ u, (s.pc u).inSet = false :=
    fun s t x h _ _ _ => h
  have hn : ∀ (s : St) (evs : List Ev), (∀ t x, evs ≠ [.store t x]) → ∀ t x, evs = [.store t x] → ∀ u, (s.pc u).inSet = false :=
    fun s evs h t x e => absurd e (h t x)
  have r1 := ReachX.step _ _ _ _ .new (.getLoadFalse _ 1 rfl rfl) (hn _ _ (by simp))
  have r2 := ReachX.step _ _ _ _ r1 (.setStore _ 0 10 rfl) (hx _ _ _ (by
    intro u; simp only [setPc]; by_cases h : u = 1 <;> simp [h, PC.inSet, St.new]))
  have r3 := ReachX.step _ _ _ _ r2 (.setLoadFalse _ 0 rfl rfl) (hn _ _ (by simp))
  have r4 := ReachX.step _ _ _ _ r3 (.setInit _ 0 rfl) (hn _ _ (by simp))
  have r5 := ReachX.step _ _ _ _ r4 (.setClose _ 0 rfl rfl) (hn _ _ (by simp))
  have r6 := ReachX.step _ _ _ _ r5 (.getWake _ 1 rfl rfl) (hn _ _ (by simp))
  have r7 := ReachX.step _ _ _ _ r6 (.setStore _ 0 20 rfl) (hx _ _ _ (by
    intro u; simp only [setPc]
    by_cases h : u = 1
    · simp [h, PC.inSet]
    · by_cases h0 : u = 0 <;> simp [h, h0, PC.inSet, St.new]))
  have r8 := ReachX.step _ _ _ _ r7 (.setLoadTrue _ 0 rfl rfl) (hn _ _ (by simp))
  have r9 := ReachX.step _ _ _ _ r8 (.getV _ 1 rfl) (hn _ _ (by simp))
  exact ⟨_, r9⟩

end Verif.Util.BlockValue
