import Verif.Common
set_option linter.unusedSimpArgs false
set_option linter.unusedVariables false
/-!
# C87, C88: the life of a server or client process
(libcs/lib/export/lib.go:37-223 `handleStdIO`, `RunServer`, `RunClient`; libcs/lib/server/server.go:24-47 and its client twin)

What the process writes to the manager, and when it ends, for every order of the signals and commands it receives, of the
results of its calls and of the passing of time. One clock tick is one second.
-/
namespace Verif.Process.Lifecycle

/-- `client`: `RunClient` instead of `RunServer`; `web`: `WebAddr` is set; `file`: `CheckConfigFile`. -/
structure Cfg where
  client : Bool
  web : Bool
  file : Bool
deriving DecidableEq, Repr

inductive Sig where
  | hup | int | quit | term
deriving DecidableEq, Repr

/-- Messages to the manager (libcs/util/stdio.go:34-41). -/
inductive Op where
  | ready | gracefulDone | shutdownDone
deriving DecidableEq, Repr

inductive PC where
  /-- `New` (libcs/lib/export/lib.go:66, 140), `StartWebServer` (72, 146), `Start` (84, 158) -/
  | create | web | start
  /-- the server is about to write that it is ready (95) -/
  | announce
  /-- the loop over signals (104, 186) -/
  | loop
  /-- the client reloads (191) -/
  | reload
  /-- `Shutdown` runs, the timer of the hard exit is armed (111-118, 197-204) -/
  | stopping (s : Sig)
  /-- about to write the answer (119-130, 205-216) -/
  | report (s : Sig)
  /-- about to call `os.Exit(0)` (131, 217) -/
  | leaving
  | exited (code : Nat)
  /-- `RunServer`/`RunClient` returned (108, 194) -/
  | returned
deriving DecidableEq, Repr

def PC.alive : PC → Bool
  | .exited _ => false
  | .returned => false
  | _ => true

structure St where
  pc : PC
  out : List Op
  /-- the channel `osSig` (capacity 1) -/
  chan : Option Sig
  /-- whether `Start` and `Shutdown` returned without an error -/
  started : Bool
  shut : Bool
  now : Nat
  /-- when the hard exit is due -/
  deadline : Option Nat
  /-- client: tries left to wait for a tunnel, and when the present one began (libcs/lib/export/lib.go:168-178) -/
  waiter : Option (Nat × Nat)

def init : St :=
  { pc := .create, out := [], chan := none, started := false, shut := false, now := 0, deadline := none, waiter := none }

inductive Ev where
  | created (ok : Bool)
  | webStarted (ok : Bool)
  | startReturned (ok : Bool)
  /-- the write of a message succeeds or not -/
  | announced (written : Bool)
  | arrive (s : Sig)
  | take
  | reloaded
  | shutdownReturned
  | reported (written : Bool)
  | exit
  /-- `WaitUntilReady` returns -/
  | waited (ok written : Bool)
  | tick
  /-- the process is killed -/
  | kill
deriving DecidableEq, Repr

/-- libcs/lib/export/lib.go:111, 197. -/
def grace (c : Cfg) : Nat := if c.client then 30 else 180

def answer : Sig → List Op
  | .quit => [.gracefulDone]
  | .term => [.shutdownDone]
  | _ => []

/-- Simplified: `ShutdownWebServer` (bounded by 5 s, web.go) belongs to `Shutdown`; a signal that comes before `Notify`
(libcs/lib/export/lib.go:101, 183) is an instance of `kill`; a command on stdin arrives when there is room in the channel. -/
def step (c : Cfg) (s : St) (e : Ev) : St :=
  if s.pc.alive = false then s else
  match e with
  | .created ok => if s.pc = .create then { s with pc := if ok then .web else .exited 1 } else s
  | .webStarted ok =>
    if s.pc = .web then
      if ok then { s with pc := if c.web = false ∨ c.file then .start else .loop } else { s with pc := .exited 1 }
    else s
  | .startReturned ok =>
    if s.pc = .start then
      if ok then
        if c.client then { s with pc := .loop, started := true, waiter := some (10, s.now) }
        else { s with pc := .announce, started := true }
      else { s with pc := if c.web then .loop else .exited 1 }
    else s
  | .announced w =>
    if s.pc = .announce then { s with pc := .loop, out := if w then s.out ++ [.ready] else s.out } else s
  | .arrive sg => if s.chan = none then { s with chan := some sg } else s
  | .take =>
    if s.pc = .loop then
      match s.chan with
      | none => s
      | some .int => { s with pc := .returned, chan := none }
      | some sg =>
        if c.client ∧ sg = .hup then { s with pc := .reload, chan := none }
        else { s with pc := .stopping sg, chan := none, deadline := some (s.now + grace c) }
    else s
  | .reloaded => if s.pc = .reload then { s with pc := .loop } else s
  | .shutdownReturned => match s.pc with
    | .stopping sg => { s with pc := .report sg, shut := true }
    | _ => s
  | .reported w => match s.pc with
    | .report sg => { s with pc := .leaving, out := if w then s.out ++ answer sg else s.out }
    | _ => s
  | .exit => if s.pc = .leaving then { s with pc := .exited 0 } else s
  | .waited ok w => match s.waiter with
    | none => s
    | some (left, since) =>
      if ok then { s with waiter := none, out := if w then s.out ++ [.ready] else s.out }
      else if since + 30 ≤ s.now then { s with waiter := if left ≤ 1 then none else some (left - 1, s.now) }
      else s
  | .tick => match s.deadline with
    | none => { s with now := s.now + 1 }
    | some d => { s with now := s.now + 1, pc := if d ≤ s.now + 1 then .exited 1 else s.pc }
  | .kill => { s with pc := .exited 2 }

def run (c : Cfg) (s : St) : List Ev → St
  | [] => s
  | e :: es => run c (step c s e) es

/-! ## Proofs -/

theorem run_append (c : Cfg) (s : St) (a b : List Ev) : run c s (a ++ b) = run c (run c s a) b := by
  induction a generalizing s with
  | nil => rfl
  | cons e es ih => exact ih (step c s e)

/-- Not yet started. -/
def PC.pre : PC → Bool
  | .create | .web | .start => true
  | _ => false

/-- Announcements of readiness that may still come. -/
def pendingReady (s : St) : Nat := (if s.pc = .announce then 1 else 0) + (if s.waiter.isSome then 1 else 0)

def isDone : Op → Bool
  | .ready => false
  | _ => true

structure RInv (s : St) : Prop where
  pre : s.pc.pre = true → s.started = false
  once : s.out.count .ready + pendingReady s ≤ 1
  st : 0 < s.out.count .ready + pendingReady s → s.started = true

theorem rinv_init : RInv init := ⟨by simp [init], by decide, by decide⟩

theorem count_answer (g : Sig) : (answer g).count .ready = 0 := by cases g <;> decide

/-- The steps, one by one. -/
inductive T (c : Cfg) (s : St) : Ev → St → Prop
  | stay (e : Ev) : T c s e s
  | created (ok : Bool) (h : s.pc = .create) : T c s (.created ok) { s with pc := if ok then .web else .exited 1 }
  | webStart (h : s.pc = .web) (hc : c.web = false ∨ c.file = true) : T c s (.webStarted true) { s with pc := .start }
  | webLoop (h : s.pc = .web) (hc : ¬ (c.web = false ∨ c.file = true)) : T c s (.webStarted true) { s with pc := .loop }
  | webFail (h : s.pc = .web) : T c s (.webStarted false) { s with pc := .exited 1 }
  | startClient (h : s.pc = .start) (hc : c.client = true) :
      T c s (.startReturned true) { s with pc := .loop, started := true, waiter := some (10, s.now) }
  | startServer (h : s.pc = .start) (hc : c.client = false) :
      T c s (.startReturned true) { s with pc := .announce, started := true }
  | startFail (h : s.pc = .start) : T c s (.startReturned false) { s with pc := if c.web then .loop else .exited 1 }
  | announced (w : Bool) (h : s.pc = .announce) :
      T c s (.announced w) { s with pc := .loop, out := if w then s.out ++ [.ready] else s.out }
  | arrive (g : Sig) (ha : s.pc.alive = true) (h : s.chan = none) : T c s (.arrive g) { s with chan := some g }
  | takeInt (h : s.pc = .loop) (hc : s.chan = some .int) : T c s .take { s with pc := .returned, chan := none }
  | takeHup (h : s.pc = .loop) (hc : s.chan = some .hup) (hcl : c.client = true) : T c s .take { s with pc := .reload, chan := none }
  | takeStop (g : Sig) (h : s.pc = .loop) (hc : s.chan = some g) (hg : g ≠ .int) (hcl : ¬ (c.client = true ∧ g = .hup)) :
      T c s .take { s with pc := .stopping g, chan := none, deadline := some (s.now + grace c) }
  | reloaded (h : s.pc = .reload) : T c s .reloaded { s with pc := .loop }
  | shut (g : Sig) (h : s.pc = .stopping g) : T c s .shutdownReturned { s with pc := .report g, shut := true }
  | reported (g : Sig) (w : Bool) (h : s.pc = .report g) :
      T c s (.reported w) { s with pc := .leaving, out := if w then s.out ++ answer g else s.out }
  | exit (h : s.pc = .leaving) : T c s .exit { s with pc := .exited 0 }
  | waitOk (l t : Nat) (w : Bool) (ha : s.pc.alive = true) (h : s.waiter = some (l, t)) :
      T c s (.waited true w) { s with waiter := none, out := if w then s.out ++ [.ready] else s.out }
  | waitNo (l t : Nat) (w : Bool) (ha : s.pc.alive = true) (h : s.waiter = some (l, t)) (ht : t + 30 ≤ s.now) :
      T c s (.waited false w) { s with waiter := if l ≤ 1 then none else some (l - 1, s.now) }
  | tick (ha : s.pc.alive = true) (h : ∀ d, s.deadline = some d → s.now + 1 < d) : T c s .tick { s with now := s.now + 1 }
  | die (d : Nat) (ha : s.pc.alive = true) (h : s.deadline = some d) (hd : d ≤ s.now + 1) :
      T c s .tick { s with now := s.now + 1, pc := .exited 1 }
  | kill (ha : s.pc.alive = true) : T c s .kill { s with pc := .exited 2 }

theorem step_T (c : Cfg) (s : St) (e : Ev) : T c s e (step c s e) := by
  unfold step
  split
  · exact .stay e
  · rename_i hal
    have hal : s.pc.alive = true := by simpa using hal
    cases e with
    | created ok =>
      dsimp only; split
      · exact .created ok (by assumption)
      · exact .stay _
    | webStarted ok =>
      dsimp only; split
      · rename_i hp
        cases ok
        · exact .webFail hp
        · simp only [if_true]
          by_cases hc : c.web = false ∨ c.file = true
          · rw [if_pos hc]; exact .webStart hp hc
          · rw [if_neg hc]; exact .webLoop hp hc
      · exact .stay _
    | startReturned ok =>
      dsimp only; split
      · rename_i hp
        cases ok
        · exact .startFail hp
        · simp only [if_true]
          by_cases hc : c.client = true
          · rw [if_pos hc]; exact .startClient hp hc
          · rw [if_neg hc]; exact .startServer hp (by simpa using hc)
      · exact .stay _
    | announced w =>
      dsimp only; split
      · exact .announced w (by assumption)
      · exact .stay _
    | arrive g =>
      dsimp only; split
      · exact .arrive g hal (by assumption)
      · exact .stay _
    | take =>
      dsimp only; split
      · rename_i hp
        split
        · exact .stay _
        · rename_i hc; exact .takeInt hp hc
        · rename_i g hne hc
          split
          · rename_i hh
            obtain ⟨h1, h2⟩ := hh
            subst h2
            exact .takeHup hp hc h1
          · rename_i hh
            exact .takeStop g hp hc (fun h => hne (by rw [h])) hh
      · exact .stay _
    | reloaded =>
      dsimp only; split
      · exact .reloaded (by assumption)
      · exact .stay _
    | shutdownReturned =>
      dsimp only; split
      · exact .shut _ (by assumption)
      · exact .stay _
    | reported w =>
      dsimp only; split
      · exact .reported _ w (by assumption)
      · exact .stay _
    | exit =>
      dsimp only; split
      · exact .exit (by assumption)
      · exact .stay _
    | waited ok w =>
      dsimp only; split
      · exact .stay _
      · rename_i l t h
        cases ok
        · simp only [Bool.false_eq_true, if_false]
          split
          · exact .waitNo l t w hal h (by assumption)
          · exact .stay _
        · exact .waitOk l t w hal h
    | tick =>
      dsimp only; split
      · rename_i h; exact .tick hal (fun d hd => by rw [h] at hd; cases hd)
      · rename_i d h
        by_cases hd : d ≤ s.now + 1
        · rw [if_pos hd]; exact .die d hal h hd
        · rw [if_neg hd]; exact .tick hal (fun d' hd' => by rw [h] at hd'; cases hd'; omega)
    | kill => exact .kill hal

theorem rinv_step (c : Cfg) {s : St} (h : RInv s) (e : Ev) : RInv (step c s e) := by
  have hT := step_T c s e
  revert hT
  generalize step c s e = s'
  intro hT
  obtain ⟨h1, h2, h3⟩ := h
  simp only [pendingReady] at h2 h3
  -- a step that leaves `out` and `waiter` alone and goes neither to `announce` nor to a state before the start
  have hset : ∀ q : St, q.out = s.out → q.waiter = s.waiter → q.started = s.started → q.pc ≠ .announce →
      (q.pc.pre = true → s.pc.pre = true) → RInv q := by
    intro q ho hw hs hp hpre
    refine ⟨fun h => by rw [hs]; exact h1 (hpre h), ?_, fun h => ?_⟩
    · simp only [pendingReady, ho, hw, if_neg hp]; omega
    · rw [hs]; apply h3; simp only [pendingReady, ho, hw, if_neg hp] at h; omega
  cases hT with
  | stay => exact ⟨h1, h2, h3⟩
  | created ok h => exact hset _ rfl rfl rfl (by cases ok <;> simp) (by rw [h]; cases ok <;> simp [PC.pre])
  | webStart h hc => exact hset _ rfl rfl rfl (by simp) (by rw [h]; simp [PC.pre])
  | webLoop h hc => exact hset _ rfl rfl rfl (by simp) (by simp [PC.pre])
  | webFail h => exact hset _ rfl rfl rfl (by simp) (by simp [PC.pre])
  | startClient h hc =>
    have h0 := h1 (by rw [h]; rfl)
    have hz : ¬ (0 < s.out.count .ready + ((if s.pc = .announce then 1 else 0) + (if s.waiter.isSome then 1 else 0))) :=
      fun hh => by rw [h3 hh] at h0; cases h0
    exact ⟨by simp [PC.pre], by simp [pendingReady]; simpa using (by omega : s.out.count .ready = 0), fun _ => rfl⟩
  | startServer h hc =>
    have h0 := h1 (by rw [h]; rfl)
    have hz : ¬ (0 < s.out.count .ready + ((if s.pc = .announce then 1 else 0) + (if s.waiter.isSome then 1 else 0))) :=
      fun hh => by rw [h3 hh] at h0; cases h0
    refine ⟨by simp [PC.pre], ?_, fun _ => rfl⟩
    simp only [pendingReady, if_true]; omega
  | startFail h => exact hset _ rfl rfl rfl (by cases c.web <;> simp) (by cases c.web <;> simp [PC.pre])
  | announced w h =>
    rw [if_pos h] at h2 h3
    refine ⟨by simp [PC.pre], ?_, fun _ => h3 (by omega)⟩
    cases w <;> simp [pendingReady] <;> omega
  | arrive g ha h => exact ⟨h1, h2, h3⟩
  | takeInt h hc => exact hset _ rfl rfl rfl (by simp) (by simp [PC.pre])
  | takeHup h hc hcl => exact hset _ rfl rfl rfl (by simp) (by simp [PC.pre])
  | takeStop g h hc hg hcl => exact hset _ rfl rfl rfl (by simp) (by simp [PC.pre])
  | reloaded h => exact hset _ rfl rfl rfl (by simp) (by simp [PC.pre])
  | shut g h => exact hset _ rfl rfl rfl (by simp) (by simp [PC.pre])
  | reported g w h =>
    have : (if w = true then s.out ++ answer g else s.out).count .ready = s.out.count .ready := by
      cases w <;> simp [List.count_append, count_answer]
    refine ⟨by simp [PC.pre], ?_, fun hh => h3 ?_⟩
    · simp only [pendingReady, this]; simp; omega
    · simp only [pendingReady, this] at hh; simp at hh; omega
  | exit h => exact hset _ rfl rfl rfl (by simp) (by simp [PC.pre])
  | waitOk l t w ha h =>
    rw [h] at h2 h3
    simp at h2 h3
    refine ⟨h1, ?_, fun _ => h3 (by omega)⟩
    cases w <;> simp [pendingReady] <;> omega
  | waitNo l t w ha h ht =>
    rw [h] at h2 h3
    simp at h2 h3
    refine ⟨h1, ?_, fun _ => h3 (by omega)⟩
    simp only [pendingReady]
    by_cases hl : l ≤ 1
    · rw [if_pos hl]; simp; omega
    · rw [if_neg hl]; simp; omega
  | tick ha h => exact ⟨h1, h2, h3⟩
  | die d ha h hd => exact hset _ rfl rfl rfl (by simp) (by simp [PC.pre])
  | kill ha => exact hset _ rfl rfl rfl (by simp) (by simp [PC.pre])

theorem rinv_run (c : Cfg) : ∀ (es : List Ev) {s : St}, RInv s → RInv (run c s es)
  | [], _, h => h
  | e :: es, _, h => rinv_run c es (rinv_step c h e)

/-- **C87**: in every execution the process says at most once that it is ready, and only after `Start` succeeded. -/
theorem ready_once_after_start (c : Cfg) (es : List Ev) :
    (run c init es).out.count .ready ≤ 1 ∧ (.ready ∈ (run c init es).out → (run c init es).started = true) := by
  obtain ⟨_, h2, h3⟩ := rinv_run c es rinv_init
  refine ⟨by omega, fun h => h3 ?_⟩
  have := List.count_pos_iff.mpr h
  omega

/-- `started` is what it stands for. -/
theorem started_iff (c : Cfg) (es : List Ev) (h : (run c init es).started = true) :
    ∃ pre post, es = pre ++ .startReturned true :: post ∧ (run c init pre).pc = .start := by
  have key : ∀ (es : List Ev) (s : St), (run c s es).started = true → s.started = true ∨
      ∃ pre post, es = pre ++ .startReturned true :: post ∧ (run c s pre).pc = .start := by
    intro es
    induction es with
    | nil => intro s h; exact .inl h
    | cons e es ih =>
      intro s h
      rcases ih _ h with h' | ⟨pre, post, h1, h2⟩
      · have hT := step_T c s e
        revert hT h'
        generalize step c s e = s'
        intro h' hT
        cases hT with
        | startClient hp hc => exact .inr ⟨[], es, rfl, hp⟩
        | startServer hp hc => exact .inr ⟨[], es, rfl, hp⟩
        | _ => exact .inl h'
      · exact .inr ⟨e :: pre, post, by rw [h1]; rfl, h2⟩
  rcases key es init h with h | h
  · cases h
  · exact h

/-! ### The end -/

/-- Where the answer to a shutdown request may have been written. -/
def PC.over : PC → Bool
  | .leaving | .exited _ | .returned => true
  | _ => false

structure DInv (c : Cfg) (s : St) : Prop where
  -- no answer before the end, and then at most one
  none_ : s.pc.over = false → s.out.filter isDone = []
  one : (s.out.filter isDone).length ≤ 1
  sh : (∃ o ∈ s.out, isDone o = true) ∨ (∃ g, s.pc = .report g) ∨ s.pc = .leaving ∨ s.pc = .exited 0 → s.shut = true
  dl : ∀ g, s.pc = .stopping g ∨ s.pc = .report g ∨ s.pc = .leaving → s.deadline ≠ none
  tm : ∀ d, s.deadline = some d → s.pc.alive = true → s.now < d

theorem dinv_init (c : Cfg) : DInv c init :=
  ⟨fun _ => rfl, by decide, (by rintro (⟨o, h, _⟩ | ⟨g, h⟩ | h | h) <;> cases h), (by rintro g (h | h | h) <;> cases h),
    fun d h => (by cases h)⟩

theorem filter_ready (l : List Op) (w : Bool) : (if w = true then l ++ [.ready] else l).filter isDone = l.filter isDone := by
  cases w <;> simp [isDone]

theorem dinv_step (c : Cfg) {s : St} (h : DInv c s) (e : Ev) : DInv c (step c s e) := by
  have hT := step_T c s e
  revert hT
  generalize step c s e = s'
  intro hT
  obtain ⟨h1, h2, h3, h4, h5⟩ := h
  have hset : ∀ q : St, q.out = s.out → q.shut = s.shut → (q.pc.over = false → s.pc.over = false) →
      (∀ g, q.pc ≠ .report g) → q.pc ≠ .leaving → q.pc ≠ .exited 0 → (∀ g, q.pc ≠ .stopping g) →
      (∀ d, q.deadline = some d → q.pc.alive = true → q.now < d) → DInv c q := by
    intro q ho hs hov hr hl he hst ht
    refine ⟨fun h => by rw [ho]; exact h1 (hov h), by rw [ho]; exact h2, ?_, ?_, ht⟩
    · rw [ho, hs]
      rintro (h | ⟨g, h⟩ | h | h)
      · exact h3 (.inl h)
      · exact absurd h (hr g)
      · exact absurd h hl
      · exact absurd h he
    · rintro g (h | h | h)
      · exact absurd h (hst g)
      · exact absurd h (hr g)
      · exact absurd h hl
  cases hT with
  | stay => exact ⟨h1, h2, h3, h4, h5⟩
  | created ok h =>
    exact hset { s with pc := if ok then .web else .exited 1 } rfl rfl (by rw [h]; simp [PC.over]) (by cases ok <;> simp) (by cases ok <;> simp)
      (by cases ok <;> simp) (by cases ok <;> simp) (fun d hd _ => h5 d hd (by rw [h]; rfl))
  | webStart h hc =>
    exact hset _ rfl rfl (by rw [h]; simp [PC.over]) (by simp) (by simp) (by simp) (by simp)
      (fun d hd _ => h5 d hd (by rw [h]; rfl))
  | webLoop h hc =>
    exact hset _ rfl rfl (by rw [h]; simp [PC.over]) (by simp) (by simp) (by simp) (by simp)
      (fun d hd _ => h5 d hd (by rw [h]; rfl))
  | webFail h =>
    exact hset _ rfl rfl (by rw [h]; simp [PC.over]) (by simp) (by simp) (by simp) (by simp)
      (fun d hd _ => h5 d hd (by rw [h]; rfl))
  | startClient h hc =>
    exact hset _ rfl rfl (by rw [h]; simp [PC.over]) (by simp) (by simp) (by simp) (by simp)
      (fun d hd _ => h5 d hd (by rw [h]; rfl))
  | startServer h hc =>
    exact hset _ rfl rfl (by rw [h]; simp [PC.over]) (by simp) (by simp) (by simp) (by simp)
      (fun d hd _ => h5 d hd (by rw [h]; rfl))
  | startFail h =>
    exact hset { s with pc := if c.web then .loop else .exited 1 } rfl rfl (by rw [h]; simp [PC.over]) (by cases c.web <;> simp) (by cases c.web <;> simp)
      (by cases c.web <;> simp) (by cases c.web <;> simp) (fun d hd _ => h5 d hd (by rw [h]; rfl))
  | announced w h =>
    refine ⟨fun _ => ?_, ?_, ?_, by simp, fun d hd _ => h5 d hd (by rw [h]; rfl)⟩
    · dsimp only; rw [filter_ready]; exact h1 (by rw [h]; rfl)
    · dsimp only; rw [filter_ready]; exact h2
    · rintro (⟨o, ho, hd⟩ | ⟨g, h'⟩ | h' | h')
      · refine h3 (.inl ⟨o, ?_, hd⟩)
        cases w
        · exact ho
        · simp only [if_true] at ho
          rcases List.mem_append.mp ho with ho | ho
          · exact ho
          · simp at ho; subst ho; cases hd
      all_goals cases h'
  | arrive g ha h => exact ⟨h1, h2, h3, h4, h5⟩
  | takeInt h hc =>
    exact hset _ rfl rfl (by simp [PC.over]) (by simp) (by simp) (by simp) (by simp)
      (fun d hd ha => by cases ha)
  | takeHup h hc hcl =>
    exact hset _ rfl rfl (by rw [h]; simp [PC.over]) (by simp) (by simp) (by simp) (by simp)
      (fun d hd _ => h5 d hd (by rw [h]; rfl))
  | takeStop g h hc hg hcl =>
    refine ⟨fun _ => h1 (by rw [h]; rfl), h2, ?_, by simp, fun d hd _ => ?_⟩
    · rintro (h' | ⟨g, h'⟩ | h' | h')
      · exact h3 (.inl h')
      all_goals cases h'
    · simp only [Option.some.injEq] at hd
      have : 0 < grace c := by unfold grace; split <;> omega
      show s.now < d
      omega
  | reloaded h =>
    exact hset _ rfl rfl (by rw [h]; simp [PC.over]) (by simp) (by simp) (by simp) (by simp)
      (fun d hd _ => h5 d hd (by rw [h]; rfl))
  | shut g h =>
    exact ⟨fun _ => h1 (by rw [h]; rfl), h2, fun _ => rfl, fun _ _ => h4 g (.inl h), fun d hd _ => h5 d hd (by rw [h]; rfl)⟩
  | reported g w h =>
    have hs := h3 (.inr (.inl ⟨g, h⟩))
    have h0 := h1 (by rw [h]; rfl)
    refine ⟨fun hh => (by cases hh), ?_, fun _ => hs, fun _ _ => h4 g (.inr (.inl h)), fun d hd _ => h5 d hd (by rw [h]; rfl)⟩
    cases w
    · exact h2
    · simp only [if_true, List.filter_append, h0]
      cases g <;> decide
  | exit h =>
    refine ⟨fun hh => (by cases hh), h2, fun _ => h3 (.inr (.inr (.inl h))), ?_, fun d hd ha => (by cases ha)⟩
    rintro g (h' | h' | h') <;> cases h'
  | waitOk l t w ha h =>
    refine ⟨fun hh => ?_, ?_, ?_, h4, h5⟩
    · dsimp only; rw [filter_ready]; exact h1 hh
    · dsimp only; rw [filter_ready]; exact h2
    · rintro (⟨o, ho, hd⟩ | h')
      · refine h3 (.inl ⟨o, ?_, hd⟩)
        cases w
        · exact ho
        · simp only [if_true] at ho
          rcases List.mem_append.mp ho with ho | ho
          · exact ho
          · simp at ho; subst ho; cases hd
      · exact h3 (.inr h')
  | waitNo l t w ha h ht => exact ⟨h1, h2, h3, h4, h5⟩
  | tick ha h => exact ⟨h1, h2, h3, h4, fun d hd _ => h d hd⟩
  | die d ha h hd =>
    exact hset _ rfl rfl (by simp [PC.over]) (by simp) (by simp) (by simp) (by simp)
      (fun d hd ha => by cases ha)
  | kill ha =>
    exact hset _ rfl rfl (by simp [PC.over]) (by simp) (by simp) (by simp) (by simp)
      (fun d hd ha => by cases ha)

theorem dinv_run (c : Cfg) : ∀ (es : List Ev) {s : St}, DInv c s → DInv c (run c s es)
  | [], _, h => h
  | e :: es, _, h => dinv_run c es (dinv_step c h e)

/-- **C87**: at most one answer to shutdown requests is ever written, only after `Shutdown` returned, and the process exits
with status 0 only after that. -/
theorem answer_once_after_shutdown (c : Cfg) (es : List Ev) :
    ((run c init es).out.filter isDone).length ≤ 1 ∧
    (.gracefulDone ∈ (run c init es).out ∨ .shutdownDone ∈ (run c init es).out ∨ (run c init es).pc = .exited 0 →
      (run c init es).shut = true) := by
  have h := dinv_run c es (dinv_init c)
  refine ⟨h.one, ?_⟩
  rintro (h' | h' | h')
  · exact h.sh (.inl ⟨_, h', rfl⟩)
  · exact h.sh (.inl ⟨_, h', rfl⟩)
  · exact h.sh (.inr (.inr (.inr h')))

/-- The request that is being handled. -/
def handles (s : St) (g : Sig) : Prop := s.pc = .stopping g ∨ s.pc = .report g

/-- **C87**: the answer is the one to the request that was taken: `gracefulShutdownDone` is written only after a graceful
shutdown was requested, `shutdownDone` only after a shutdown was. -/
theorem answers_the_request (c : Cfg) (es : List Ev) (g : Sig) (o : Op) (hg : answer g = [o]) (h : o ∈ (run c init es).out) :
    ∃ pre post, es = pre ++ .take :: post ∧ (run c init pre).pc = .loop ∧ (run c init pre).chan = some g := by
  have hdone : isDone o = true := by cases g <;> simp [answer] at hg <;> subst hg <;> rfl
  have huniq : ∀ g', o ∈ answer g' → g' = g := by
    intro g' h'; cases g <;> cases g' <;> simp [answer] at hg h' <;> (try subst hg) <;> simp_all
  have key : ∀ (es : List Ev) (s : St), o ∈ (run c s es).out ∨ handles (run c s es) g → (o ∈ s.out ∨ handles s g) ∨
      ∃ pre post, es = pre ++ .take :: post ∧ (run c s pre).pc = .loop ∧ (run c s pre).chan = some g := by
    intro es
    induction es with
    | nil => intro s h; exact .inl h
    | cons e es ih =>
      intro s h
      rcases ih _ h with h' | ⟨pre, post, h1, h2⟩
      · have hT := step_T c s e
        revert hT h'
        generalize step c s e = s'
        intro h' hT
        cases hT with
        | takeStop g' hp hc hg' hcl =>
          rcases h' with h' | h' | h'
          · exact .inl (.inl h')
          · cases h'; exact .inr ⟨[], es, rfl, hp, hc⟩
          · cases h'
        | shut g' hp =>
          left
          rcases h' with h' | h' | h'
          · exact .inl h'
          · cases h'
          · cases h'; exact .inr (.inl hp)
        | reported g' w hp =>
          left
          rcases h' with h' | h' | h'
          · cases w
            · exact .inl h'
            · simp only [if_true] at h'
              rcases List.mem_append.mp h' with h' | h'
              · exact .inl h'
              · have := huniq g' h'; subst this; exact .inr (.inr hp)
          · cases h'
          · cases h'
        | announced w hp =>
          left
          rcases h' with h' | h' | h'
          · cases w
            · exact .inl h'
            · simp only [if_true] at h'
              rcases List.mem_append.mp h' with h' | h'
              · exact .inl h'
              · simp at h'; subst h'; cases hdone
          · cases h'
          · cases h'
        | waitOk l t w ha hw =>
          left
          rcases h' with h' | h'
          · cases w
            · exact .inl h'
            · simp only [if_true] at h'
              rcases List.mem_append.mp h' with h' | h'
              · exact .inl h'
              · simp at h'; subst h'; cases hdone
          · exact .inr h'
        | stay => exact .inl h'
        | arrive g' ha hc => exact .inl h'
        | waitNo l t w ha hw ht => exact .inl h'
        | tick ha hd => exact .inl h'
        | created ok hp => left; rcases h' with h' | h' | h' <;> first | exact .inl h' | (cases ok <;> cases h')
        | startFail hp => left; rcases h' with h' | h' | h' <;> first | exact .inl h' | (cases hw : c.web <;> simp [hw] at h')
        | _ => left; rcases h' with h' | h' | h' <;> first | exact .inl h' | cases h'
      · exact .inr ⟨e :: pre, post, by rw [h1]; rfl, h2⟩
  rcases key es init (.inl h) with (h | h | h) | h
  · cases h
  · cases h
  · cases h
  · exact h

/-- **C87**: a process that has begun to shut down (it has a deadline, set to 180 s for a server and 30 s for a client when
it took the request) does not live beyond it, whatever `Shutdown` does. -/
theorem lives_until_deadline (c : Cfg) (es : List Ev) (d : Nat) (hd : (run c init es).deadline = some d)
    (ha : (run c init es).pc.alive = true) : (run c init es).now < d := (dinv_run c es (dinv_init c)).tm d hd ha

theorem deadline_stays (c : Cfg) (es : List Ev) {s : St} {d : Nat} (h : s.deadline = some d)
    (hp : s.pc ≠ .loop) (hr : s.pc ≠ .reload) (hn : s.pc ≠ .announce) (hpre : s.pc.pre = false) :
    (run c s es).deadline = some d := by
  induction es generalizing s with
  | nil => exact h
  | cons e es ih =>
    have hT := step_T c s e
    show (run c (step c s e) es).deadline = some d
    revert hT
    generalize step c s e = s'
    intro hT
    have hx : ∀ q : PC, s.pc = q → q = .create ∨ q = .web ∨ q = .start → False := by
      intro q hq hh
      rw [hq] at hpre
      rcases hh with rfl | rfl | rfl <;> cases hpre
    cases hT with
    | stay => exact ih h hp hr hn hpre
    | created ok h' => exact (hx _ h' (by simp)).elim
    | webStart h' hc => exact (hx _ h' (by simp)).elim
    | webLoop h' hc => exact (hx _ h' (by simp)).elim
    | webFail h' => exact (hx _ h' (by simp)).elim
    | startClient h' hc => exact (hx _ h' (by simp)).elim
    | startServer h' hc => exact (hx _ h' (by simp)).elim
    | startFail h' => exact (hx _ h' (by simp)).elim
    | announced w h' => exact absurd h' hn
    | arrive g ha h' => exact ih h hp hr hn hpre
    | takeInt h' hc => exact absurd h' hp
    | takeHup h' hc hcl => exact absurd h' hp
    | takeStop g h' hc hg hcl => exact absurd h' hp
    | reloaded h' => exact absurd h' hr
    | shut g h' => exact ih h (by simp) (by simp) (by simp) rfl
    | reported g w h' => exact ih h (by simp) (by simp) (by simp) rfl
    | exit h' => exact ih h (by simp) (by simp) (by simp) rfl
    | waitOk l t w ha h' => exact ih h hp hr hn hpre
    | waitNo l t w ha h' ht => exact ih h hp hr hn hpre
    | tick ha h' => exact ih h hp hr hn hpre
    | die d' ha h' hd => exact ih h (by simp) (by simp) (by simp) rfl
    | kill ha => exact ih h (by simp) (by simp) (by simp) rfl

/-- **C87, C88**: from the moment a process takes a shutdown request (or, as a server, SIGHUP), it is gone after 180 s
(server) or 30 s (client) at the latest, whatever happens. -/
theorem stops_within_grace (c : Cfg) (pre post : List Ev) (g : Sig) (hp : (run c init pre).pc = .loop)
    (hc : (run c init pre).chan = some g) (hg : g = .quit ∨ g = .term ∨ (g = .hup ∧ c.client = false))
    (ha : (run c init (pre ++ .take :: post)).pc.alive = true) :
    (run c init (pre ++ .take :: post)).now < (run c init pre).now + (if c.client then 30 else 180) := by
  show (run c init (pre ++ .take :: post)).now < (run c init pre).now + grace c
  have hstep : step c (run c init pre) .take =
      { run c init pre with pc := .stopping g, chan := none, deadline := some ((run c init pre).now + grace c) } := by
    simp only [step, hp, PC.alive, hc]
    rcases hg with rfl | rfl | ⟨rfl, hcl⟩
    · simp
    · simp
    · simp [hcl]
  refine lives_until_deadline c _ _ ?_ ha
  rw [run_append]
  show (run c (step c (run c init pre) .take) post).deadline = _
  rw [hstep]
  exact deadline_stays c post rfl (by simp) (by simp) (by simp) rfl

/-- **C88**: a process in its signal loop takes a request that has arrived at its next step. -/
theorem request_taken_partial (c : Cfg) (s : St) (g : Sig) (hp : s.pc = .loop) (hc : s.chan = some g)
    (hg : g = .quit ∨ g = .term) : (step c s .take).pc = .stopping g := by
  simp only [step, hp, PC.alive, hc]
  rcases hg with rfl | rfl <;> simp

/-- A request that arrives while no other is waiting is kept until it is taken. -/
theorem request_kept (c : Cfg) (s : St) (g : Sig) (ha : s.pc.alive = true) (hn : s.chan = none) :
    (step c s (.arrive g)).chan = some g := by
  simp only [step, ha, hn]; simp

/-- **C88 is false of the code**: while a client reloads its services nothing is taken: whatever requests arrive and
however long it takes, the client goes on until `ReloadServices` returns (which can wait for ever, for example for a
connection attempt in progress) or it is killed. There is no deadline. -/
theorem reload_blocks_requests (c : Cfg) (s : St) (hp : s.pc = .reload) (hd : s.deadline = none) (es : List Ev)
    (hes : ∀ e ∈ es, e ≠ .reloaded ∧ e ≠ .kill) : (run c s es).pc = .reload ∧ (run c s es).deadline = none := by
  induction es generalizing s with
  | nil => exact ⟨hp, hd⟩
  | cons e es ih =>
    have hes' := fun x hx => hes x (List.mem_cons_of_mem _ hx)
    have he := hes e List.mem_cons_self
    have hT := step_T c s e
    show (run c (step c s e) es).pc = .reload ∧ (run c (step c s e) es).deadline = none
    revert hT
    generalize step c s e = s'
    intro hT
    cases hT with
    | stay => exact ih s hp hd hes'
    | arrive g ha h' => exact ih _ hp hd hes'
    | waitOk l t w ha h' => exact ih _ hp hd hes'
    | waitNo l t w ha h' ht => exact ih _ hp hd hes'
    | tick ha h' => exact ih _ hp hd hes'
    | reloaded h' => exact absurd rfl he.1
    | kill ha => exact absurd rfl he.2
    | die d ha h' hd' => rw [hd] at h'; cases h'
    | created ok h' => rw [hp] at h'; cases h'
    | webStart h' hc => rw [hp] at h'; cases h'
    | webLoop h' hc => rw [hp] at h'; cases h'
    | webFail h' => rw [hp] at h'; cases h'
    | startClient h' hc => rw [hp] at h'; cases h'
    | startServer h' hc => rw [hp] at h'; cases h'
    | startFail h' => rw [hp] at h'; cases h'
    | announced w h' => rw [hp] at h'; cases h'
    | takeInt h' hc => rw [hp] at h'; cases h'
    | takeHup h' hc hcl => rw [hp] at h'; cases h'
    | takeStop g h' hc hg hcl => rw [hp] at h'; cases h'
    | shut g h' => rw [hp] at h'; cases h'
    | reported g w h' => rw [hp] at h'; cases h'
    | exit h' => rw [hp] at h'; cases h'

/-- Such a state is reached. -/
theorem reload_reached : let s := run ⟨true, false, true⟩ init [.created true, .webStarted true, .startReturned true,
    .arrive .hup, .take, .arrive .term]
    s.pc = .reload ∧ s.deadline = none ∧ s.chan = some .term := ⟨rfl, rfl, rfl⟩

/-- A client that shuts down can still say that it is ready, even after it said that the shutdown is done. -/
theorem ready_after_done : (run ⟨true, false, true⟩ init [.created true, .webStarted true, .startReturned true, .arrive .quit,
    .take, .shutdownReturned, .reported true, .waited true true]).out = [.gracefulDone, .ready] := rfl

/-- SIGHUP makes a server shut down without an answer. -/
theorem hup_stops_server_silently : let s := run ⟨false, false, true⟩ init [.created true, .webStarted true,
    .startReturned true, .announced true, .arrive .hup, .take, .shutdownReturned, .reported true, .exit]
    s.pc = .exited 0 ∧ s.out = [.ready] := ⟨rfl, rfl⟩

/-- A process with a web UI and no configuration file never starts the service and never says that it is ready. -/
theorem web_without_file_never_ready (c : Cfg) (hw : c.web = true) (hf : c.file = false) (es : List Ev) :
    .ready ∉ (run c init es).out := by
  intro h
  have h1 := (ready_once_after_start c es).2 h
  obtain ⟨pre, post, _, h2⟩ := started_iff c es h1
  have key : ∀ (es : List Ev) (s : St), s.pc ≠ .start → (run c s es).pc ≠ .start := by
    intro es
    induction es with
    | nil => intro s h; exact h
    | cons e es ih =>
      intro s hs
      refine ih _ ?_
      have hT := step_T c s e
      revert hT
      generalize step c s e = s'
      intro hT
      cases hT with
      | webStart h' hc => rw [hw, hf] at hc; rcases hc with hc | hc <;> cases hc
      | created ok h' => cases ok <;> simp
      | startFail h' => exact absurd h' hs
      | stay => exact hs
      | arrive g ha h' => exact hs
      | waitOk l t w ha h' => exact hs
      | waitNo l t w ha h' ht => exact hs
      | tick ha h' => exact hs
      | _ => simp
  exact key pre init (by simp [init]) h2

/-- A client gives up saying that it is ready after ten waits of 30 s: with no tunnel in the first 300 s it is never
announced (and the manager never hears of it), although it goes on and may connect later. -/
theorem client_gives_up : let s := run ⟨true, false, true⟩ init ([.created true, .webStarted true, .startReturned true] ++
      (List.replicate 10 (List.replicate 30 Ev.tick ++ [.waited false false])).flatten)
    s.waiter = none ∧ s.pc = .loop ∧ s.now = 300 ∧ s.out = [] := by decide +kernel

/-- Non-vacuity: a server starts, is asked to shut down, and answers. -/
example : let s := run ⟨false, false, true⟩ init [.created true, .webStarted true, .startReturned true, .announced true,
    .arrive .term, .take, .tick, .shutdownReturned, .reported true, .exit]
    s.out = [.ready, .shutdownDone] ∧ s.pc = .exited 0 ∧ s.started = true ∧ s.shut = true := ⟨rfl, rfl, rfl, rfl⟩

end Verif.Process.Lifecycle
