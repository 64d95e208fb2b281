import Verif.Common
set_option linter.unusedSimpArgs false
set_option linter.unusedVariables false
/-!
# C97: read deadlines on the connections of the internal API
(libcs/client/api/conn.go:65-72 `Read`, 147-170 `SetDeadline`, `SetReadDeadline`; libcs/client/std/pipe.go:67-84 `Read`,
171-173 `StopPending`)

The HTTP server of the internal API runs on these virtual connections and sets read deadlines on them.
`StopPending` sends an error on an unbuffered channel that only a `Read` waiting in the pipe receives from: here it is a *shot*,
which is used up by one `Read`.
-/
namespace Verif.Client.ApiDeadline

structure St where
  now : Nat := 1
  /-- armed timers: number and time -/
  timers : List (Nat × Nat) := []
  /-- `c.timer` -/
  cur : Option Nat := none
  /-- goroutines of expired timers inside `StopPending`, with the time they expired at -/
  shots : List Nat := []
  /-- number of callers of `SetReadDeadline(aLongTimeAgo)` still inside `StopPending` -/
  aborts : Nat := 0
  /-- a `Read` waits in the pipe -/
  reading : Bool := false
  /-- the pipe is closed -/
  closed : Bool := false
  /-- the number of the next timer -/
  next : Nat := 0
  /-- accepted calls: the deadline in force by the contract of `net.Conn` (`none`: none) -/
  deadline : Option Nat := none
  /-- results of `Read`: `none` for data, `some (t, d)` for a time-out at `t` when the deadline in force was `d` -/
  rets : List (Option (Nat × Option Nat)) := []
  /-- number of calls of `SetReadDeadline` that set a timer or abort -/
  sets : Nat := 0
deriving DecidableEq, Repr

inductive Act where
  /-- libcs/client/api/conn.go:158-165 `SetReadDeadline(t)` with another time than `aLongTimeAgo`; 0 stands for the zero time -/
  | set (t : Nat)
  /-- libcs/client/api/conn.go:154-157 `SetReadDeadline(aLongTimeAgo)` -/
  | abort
  /-- time passes; timers that are due run their function -/
  | tick
  /-- libcs/client/api/conn.go:65-66, libcs/client/std/pipe.go:67-72: `Read` is called and waits (on a closed pipe it returns at once) -/
  | begin
  /-- libcs/client/std/pipe.go:75-78: data arrives for the waiting `Read` -/
  | data
  /-- libcs/client/std/pipe.go:81-82: the waiting `Read` receives the error of an expired timer -/
  | hit
  /-- libcs/client/std/pipe.go:81-82: the waiting `Read` receives the error of an abort, whose caller goes on -/
  | hitAbort
  /-- the pipe is closed; a waiting `Read` returns -/
  | close
deriving DecidableEq, Repr

/-- libcs/client/api/conn.go:67-70: after every `Read` the timer set last is stopped (without effect if it has expired). -/
def stopTimer (s : St) : St :=
  match s.cur with
  | none => s
  | some i => { s with timers := s.timers.filter (fun p => p.1 != i), cur := none }

/-- One step; a step whose condition does not hold changes nothing.
`deadline`, `rets` and `sets` only record. (A call with the zero time clears the deadline by the contract, a call with a past time
makes it pass at once; both are refused with an error by libcs/client/api/conn.go:158-161 and change nothing.) -/
def step (s : St) : Act → St
  | .set t =>
    if t ≤ s.now then { s with deadline := if t = 0 then none else some t }
    else { s with timers := (s.next, t) :: s.timers, cur := some s.next, next := s.next + 1,
                  deadline := some t, sets := s.sets + 1 }
  | .abort => { s with aborts := s.aborts + 1, deadline := some 0, sets := s.sets + 1 }
  | .tick =>
    { s with now := s.now + 1,
             timers := s.timers.filter (fun p => !(p.2 ≤ s.now + 1)),
             shots := s.shots ++ (s.timers.filter (fun p => p.2 ≤ s.now + 1)).map Prod.snd }
  | .begin =>
    if s.reading = true then s
    else if s.closed = true then stopTimer s
    else { s with reading := true }
  | .data =>
    if s.reading = true then stopTimer { s with reading := false, rets := s.rets ++ [none] } else s
  | .hit =>
    match s.reading, s.shots with
    | true, _ :: rest =>
      stopTimer { s with reading := false, shots := rest, rets := s.rets ++ [some (s.now, s.deadline)] }
    | _, _ => s
  | .hitAbort =>
    if s.reading = true ∧ 0 < s.aborts then
      stopTimer { s with reading := false, aborts := s.aborts - 1, rets := s.rets ++ [some (s.now, s.deadline)] }
    else s
  | .close =>
    if s.reading = true then stopTimer { s with closed := true, reading := false }
    else { s with closed := true }

def run (s : St) (as : List Act) : St := as.foldl step s

theorem run_cons (s a as) : run s (a :: as) = run (step s a) as := rfl
theorem run_append (s as bs) : run s (as ++ bs) = run (run s as) bs := by simp [run, List.foldl_append]

/-- number of `Read`s that failed with a time-out -/
def timeouts (s : St) : Nat := (s.rets.filter Option.isSome).length

/-! ## Every time-out is accounted for -/

/-- time-outs, shots, aborts and armed timers together never exceed the calls of `SetReadDeadline` -/
def Acc (s : St) : Prop := timeouts s + s.shots.length + s.aborts + s.timers.length ≤ s.sets

theorem stopTimer_len (s : St) : (stopTimer s).timers.length ≤ s.timers.length ∧ (stopTimer s).shots = s.shots ∧
    (stopTimer s).aborts = s.aborts ∧ (stopTimer s).rets = s.rets ∧ (stopTimer s).sets = s.sets ∧
    (stopTimer s).now = s.now := by
  unfold stopTimer
  split
  · simp
  · simp; exact List.length_filter_le _ _

theorem split_len (p : Nat × Nat → Bool) (l : List (Nat × Nat)) :
    (l.filter p).length + (l.filter (fun x => !p x)).length = l.length := by
  induction l with
  | nil => rfl
  | cons a l ih => cases h : p a <;> simp [List.filter, h] <;> omega

theorem step_acc {s : St} (h : Acc s) (a) : Acc (step s a) := by
  unfold Acc timeouts at h ⊢
  cases a with
  | set t =>
    simp only [step]
    split
    · exact h
    · simp; omega
  | abort => simp only [step]; omega
  | tick =>
    have := split_len (fun p => decide (p.2 ≤ s.now + 1)) s.timers
    simp only [step, List.length_append, List.length_map]
    omega
  | begin =>
    simp only [step]
    split
    · exact h
    · split
      · obtain ⟨a, b, c, d, e, f⟩ := stopTimer_len s
        rw [b, c, d, e]; omega
      · exact h
  | data =>
    simp only [step]
    split
    · obtain ⟨a, b, c, d, e, f⟩ := stopTimer_len { s with reading := false, rets := s.rets ++ [none] }
      rw [b, c, d, e]
      simp only at a
      simp [List.filter_append]; omega
    · exact h
  | hit =>
    simp only [step]
    split
    · rename_i x rest _ hs
      obtain ⟨a, b, c, d, e, f⟩ := stopTimer_len
        { s with reading := false, shots := rest, rets := s.rets ++ [some (s.now, s.deadline)] }
      rw [b, c, d, e]
      simp only [hs, List.length_cons] at h a
      simp [List.filter_append]; omega
    · exact h
  | hitAbort =>
    simp only [step]
    split
    · obtain ⟨a, b, c, d, e, f⟩ := stopTimer_len
        { s with reading := false, aborts := s.aborts - 1, rets := s.rets ++ [some (s.now, s.deadline)] }
      rw [b, c, d, e]
      simp only at a
      simp [List.filter_append]; omega
    · exact h
  | close =>
    simp only [step]
    split
    · obtain ⟨a, b, c, d, e, f⟩ := stopTimer_len { s with closed := true, reading := false }
      rw [b, c, d, e]
      simp only at a ⊢
      omega
    · exact h

theorem run_acc (as : List Act) : ∀ s, Acc s → Acc (run s as) := by
  induction as with
  | nil => intro s h; exact h
  | cons a as ih => intro s h; exact ih _ (step_acc h a)

/-- **At most one `Read` fails for each deadline that was set**, for every schedule. (By the contract of `net.Conn` every `Read`
after the deadline fails.) -/
theorem one_timeout_per_deadline (as : List Act) : timeouts (run {} as) ≤ (run {} as).sets := by
  have : Acc (run {} as) := run_acc as {} (by simp [Acc, timeouts])
  unfold Acc at this; omega

/-! ## Clean use: a deadline is set only when no earlier one is left over -/

/-- nothing is left of earlier deadlines -/
def Clean (s : St) : Prop := s.timers = [] ∧ s.shots = [] ∧ s.aborts = 0

/-- Every `set` and `abort` in the schedule is done in a clean state, and none is refused. -/
def CleanUse : St → List Act → Prop
  | _, [] => True
  | s, a :: as =>
    ((∀ t, a = .set t → Clean s ∧ s.now < t) ∧ (a = .abort → Clean s)) ∧ CleanUse (step s a) as

/-- Whatever is left stands for the deadline in force. -/
structure DInv (s : St) : Prop where
  one : s.timers.length + s.shots.length + s.aborts ≤ 1
  timer : ∀ p ∈ s.timers, s.deadline = some p.2 ∧ s.now < p.2 ∧ s.cur = some p.1
  shot : ∀ t ∈ s.shots, s.deadline = some t ∧ t ≤ s.now
  abort : 0 < s.aborts → s.deadline = some 0
  rets : ∀ r ∈ s.rets, ∀ t d, r = some (t, d) → ∃ d', d = some d' ∧ d' ≤ t

theorem stop_fields (s : St) : (stopTimer s).shots = s.shots ∧ (stopTimer s).aborts = s.aborts ∧
    (stopTimer s).rets = s.rets ∧ (stopTimer s).deadline = s.deadline ∧ (stopTimer s).now = s.now ∧
    ((stopTimer s).timers = s.timers.filter (fun p => some p.1 != s.cur)) := by
  unfold stopTimer
  split
  · rename_i h
    refine ⟨rfl, rfl, rfl, rfl, rfl, ?_⟩
    rw [h]
    exact (List.filter_eq_self.2 (by simp)).symm
  · rename_i i h
    refine ⟨rfl, rfl, rfl, rfl, rfl, ?_⟩
    simp only [h]
    congr 1

theorem stop_dinv {s : St} (h : DInv s) : DInv (stopTimer s) := by
  obtain ⟨a, b, c, d, e, f⟩ := stop_fields s
  have hnil : (stopTimer s).timers = [] := by
    rw [f, List.filter_eq_nil_iff]
    intro p hp
    have := (h.timer p hp).2.2
    simp [this]
  refine ⟨?_, ?_, ?_, ?_, ?_⟩
  · rw [hnil, a, b]; have := h.one; simp; omega
  · rw [hnil]; simp
  · rw [a, d, e]; exact h.shot
  · rw [b, d]; exact h.abort
  · rw [c]; exact h.rets

theorem step_dinv {s : St} (h : DInv s) (a : Act) (hc : (∀ t, a = .set t → Clean s ∧ s.now < t) ∧ (a = .abort → Clean s)) :
    DInv (step s a) := by
  cases a with
  | set t =>
    obtain ⟨⟨c1, c2, c3⟩, hl⟩ := hc.1 t rfl
    have hn : ¬ t ≤ s.now := by omega
    simp only [step, hn, if_false]
    refine ⟨by simp [c1, c2, c3], ?_, by simp [c2], by simp [c3], h.rets⟩
    intro p hp
    simp only [c1, List.mem_singleton] at hp
    subst hp
    exact ⟨rfl, hl, rfl⟩
  | abort =>
    obtain ⟨c1, c2, c3⟩ := hc.2 rfl
    simp only [step]
    exact ⟨by simp [c1, c2, c3], by simp [c1], by simp [c2], by simp, h.rets⟩
  | tick =>
    simp only [step]
    have hl := split_len (fun p => decide (p.2 ≤ s.now + 1)) s.timers
    refine ⟨?_, ?_, ?_, h.abort, h.rets⟩
    · have := h.one
      simp only [List.length_append, List.length_map]
      omega
    · intro p hp
      simp only [List.mem_filter, Bool.not_eq_true', decide_eq_false_iff_not] at hp
      have := h.timer p hp.1
      exact ⟨this.1, by simp only; omega, this.2.2⟩
    · intro t ht
      simp only [List.mem_append, List.mem_map, List.mem_filter, decide_eq_true_eq] at ht
      rcases ht with ht | ⟨p, ⟨hp, hle⟩, rfl⟩
      · have := h.shot t ht; exact ⟨this.1, by simp only; omega⟩
      · exact ⟨(h.timer p hp).1, hle⟩
  | begin =>
    simp only [step]
    split
    · exact h
    · split
      · exact stop_dinv h
      · exact ⟨h.one, h.timer, h.shot, h.abort, h.rets⟩
  | data =>
    simp only [step]
    split
    · apply stop_dinv
      refine ⟨h.one, h.timer, h.shot, h.abort, ?_⟩
      intro r hr t d e
      simp only [List.mem_append, List.mem_singleton] at hr
      rcases hr with hr | rfl
      · exact h.rets r hr t d e
      · cases e
    · exact h
  | hit =>
    simp only [step]
    split
    · rename_i x rest _ hs
      apply stop_dinv
      have h1 := h.one
      have h2 := h.shot x (by simp [hs])
      refine ⟨?_, h.timer, ?_, h.abort, ?_⟩
      · simp only [hs, List.length_cons] at h1; simp only; omega
      · intro t ht; exact h.shot t (by simp only at ht; simp [hs, ht])
      · intro r hr t d e
        simp only [List.mem_append, List.mem_singleton] at hr
        rcases hr with hr | rfl
        · exact h.rets r hr t d e
        · simp only [Option.some.injEq, Prod.mk.injEq] at e
          obtain ⟨rfl, rfl⟩ := e
          exact ⟨x, h2.1, h2.2⟩
    · exact h
  | hitAbort =>
    simp only [step]
    split
    · rename_i hr
      apply stop_dinv
      have h1 := h.one
      have h2 := h.abort hr.2
      refine ⟨by simp only; omega, h.timer, h.shot, fun _ => h2, ?_⟩
      intro r hr' t d e
      simp only [List.mem_append, List.mem_singleton] at hr'
      rcases hr' with hr' | rfl
      · exact h.rets r hr' t d e
      · simp only [Option.some.injEq, Prod.mk.injEq] at e
        obtain ⟨rfl, rfl⟩ := e
        exact ⟨0, h2, by omega⟩
    · exact h
  | close =>
    simp only [step]
    split
    · apply stop_dinv
      exact ⟨h.one, h.timer, h.shot, h.abort, h.rets⟩
    · exact ⟨h.one, h.timer, h.shot, h.abort, h.rets⟩

theorem run_dinv (as : List Act) : ∀ s, DInv s → CleanUse s as → DInv (run s as) := by
  induction as with
  | nil => intro s h _; exact h
  | cons a as ih =>
    intro s h hc
    exact ih _ (step_dinv h a hc.1) hc.2

/-- **With clean use no `Read` ever fails before the deadline in force**, for every schedule. -/
theorem no_early_timeout (as : List Act) (h : CleanUse {} as) (t : Nat) (d : Option Nat)
    (hr : some (t, d) ∈ (run {} as).rets) : ∃ d', d = some d' ∧ d' ≤ t :=
  (run_dinv as {} ⟨by simp, by simp, by simp, by simp, by simp⟩ h).rets _ hr t d rfl

/-- **A deadline set in a clean state is kept**: if it is set `n` ticks ahead and a `Read` waits from then on without data, then after
`n` ticks (and not before) that `Read` can fail with a time-out, and nothing else can happen to it.
C97. Missing from the claim: deadlines set while something of an earlier one is left, where it is false (`extended_deadline_not_kept`, `stale_timeout`, `clear_has_no_effect`). -/
theorem deadline_kept_partial (s : St) (h : Clean s) (hr : s.reading = false) (hc : s.closed = false) (n k : Nat) (hn : 0 < n) :
    let s' := run s ([.set (s.now + n), .begin] ++ List.replicate k .tick)
    s'.reading = true ∧ (if k < n then s'.shots = [] ∧ step s' .hit = s'
      else s'.shots = [s.now + n] ∧ (step s' .hit).rets = s.rets ++ [some (s.now + k, some (s.now + n))]) := by
  obtain ⟨c1, c2, c3⟩ := h
  have h0 : run s [.set (s.now + n), .begin] =
      { s with timers := [(s.next, s.now + n)], cur := some s.next, next := s.next + 1,
               deadline := some (s.now + n), sets := s.sets + 1, reading := true } := by
    have : ¬ s.now + n ≤ s.now := by omega
    simp only [run, List.foldl, step, if_neg this, hr, hc, c1]
    simp
  have hk : ∀ k, run s ([.set (s.now + n), .begin] ++ List.replicate k .tick) =
      { s with now := s.now + k,
               timers := if k < n then [(s.next, s.now + n)] else [],
               shots := if k < n then [] else [s.now + n],
               cur := some s.next, next := s.next + 1,
               deadline := some (s.now + n), sets := s.sets + 1, reading := true } := by
    intro k
    induction k with
    | zero => rw [run_append, h0]; simp [run, hn, c2]
    | succ k ih =>
      rw [List.replicate_succ', ← List.append_assoc, run_append, ih]
      show step _ .tick = _
      simp only [step]
      by_cases h1 : k + 1 < n
      · have h2 : k < n := by omega
        simp [h1, h2, Nat.add_assoc]
      · by_cases h2 : k < n
        · have h3 : n = k + 1 := by omega
          subst h3
          simp [Nat.add_assoc]
        · simp [h1, h2, Nat.add_assoc]
  intro s'
  have e : s' = _ := hk k
  rw [e]
  by_cases h1 : k < n
  · simp [h1, step]
  · simp [h1, step, stopTimer]

/-! ## Where the contract of `net.Conn` is broken -/

/-- (violation) Moving the deadline further away does not help: the first timer still fires. -/
theorem extended_deadline_not_kept :
    (run {} [.set 3, .set 100, .begin, .tick, .tick, .hit]).rets = [some (3, some 100)] := by decide

/-- (violation) A timer that expires just before data arrives lets the next `Read` fail, whatever its own deadline. -/
theorem stale_timeout :
    (run {} [.set 3, .begin, .tick, .tick, .data, .set 100, .begin, .hit]).rets = [none, some (3, some 100)] := by decide

/-- (violation) After the deadline only one `Read` fails; the next one waits, however long. -/
theorem later_reads_not_stopped (n : Nat) :
    let s := run {} ([.set 3, .begin, .tick, .tick, .hit, .begin] ++ List.replicate n .tick)
    s.reading = true ∧ s.deadline = some 3 ∧ step s .hit = s ∧ step s .hitAbort = s := by
  have h : ∀ n, run {} ([.set 3, .begin, .tick, .tick, .hit, .begin] ++ List.replicate n .tick) =
      { now := 3 + n, next := 1, deadline := some 3, sets := 1, reading := true,
        rets := [some (3, some 3)] } := by
    intro n
    induction n with
    | zero => decide
    | succ n ih =>
      rw [List.replicate_succ', ← List.append_assoc, run_append, ih]
      simp [run, step]; omega
  intro s
  have e : s = _ := h n
  rw [e]
  simp [step]

/-- (violation) Clearing the deadline has no effect: the `Read` still fails. -/
theorem clear_has_no_effect :
    (run {} [.set 3, .set 0, .begin, .tick, .tick, .hit]).rets = [some (3, none)] := by decide

/-- (violation) Setting a deadline that has passed has no effect: the waiting `Read` is not stopped. -/
theorem past_deadline_has_no_effect (s : St) (t : Nat) (h : t ≤ s.now) (hs : s.shots = []) (ha : s.aborts = 0) :
    step (step s (.set t)) .hit = step s (.set t) ∧ step (step s (.set t)) .hitAbort = step s (.set t) := by
  simp only [step, h, if_true, hs, ha]
  constructor
  · split <;> simp_all
  · simp

theorem stuck_aux (as : List Act) : ∀ s : St, s.closed = true → s.reading = false →
    (run s as).closed = true ∧ (run s as).reading = false ∧ s.aborts ≤ (run s as).aborts ∧
    s.shots.length ≤ (run s as).shots.length := by
  induction as with
  | nil => intro s h1 h2; exact ⟨h1, h2, Nat.le_refl _, Nat.le_refl _⟩
  | cons a as ih =>
    intro s h1 h2
    have : (step s a).closed = true ∧ (step s a).reading = false ∧ s.aborts ≤ (step s a).aborts ∧
        s.shots.length ≤ (step s a).shots.length := by
      cases a with
      | set t => simp only [step]; split <;> simp [h1, h2]
      | abort => simp [step, h1, h2]
      | tick => simp [step, h1, h2]
      | begin =>
        obtain ⟨a, b, c, d, e, f⟩ := stop_fields s
        have e1 : step s .begin = stopTimer s := by simp [step, h1, h2]
        rw [e1, a, b]
        refine ⟨?_, ?_, Nat.le_refl _, Nat.le_refl _⟩ <;> (unfold stopTimer; split <;> assumption)
      | data => simp [step, h1, h2]
      | hit => simp [step, h1, h2]
      | hitAbort => simp [step, h1, h2]
      | close =>
        simp [step, h2]
    obtain ⟨a1, a2, a3, a4⟩ := this
    obtain ⟨b1, b2, b3, b4⟩ := ih (step s a) a1 a2
    exact ⟨b1, b2, by rw [run_cons]; omega, by rw [run_cons]; omega⟩

/-- (violation) Aborting the pending read of a connection that is closed (the visitor went away) never returns: whatever happens
afterwards, the caller stays inside `SetReadDeadline`. The HTTP server does this after every request, holding a lock. -/
theorem abort_after_close_never_returns (s : St) (as : List Act) (h : s.closed = true) (hr : s.reading = false) :
    s.aborts + 1 ≤ (run s (.abort :: as)).aborts := by
  rw [run_cons]
  have := stuck_aux as (step s .abort) (by simp [step, h]) (by simp [step, hr])
  exact this.2.2.1

/-- (violation) And the goroutine of a timer that expires when nobody reads any more is never released. -/
theorem expired_timer_leaks (as : List Act) :
    1 ≤ (run {} ([.set 2, .tick, .close] ++ as)).shots.length := by
  rw [run_append]
  exact (stuck_aux as (run {} [.set 2, .tick, .close]) (by decide) (by decide)).2.2.2

/-- (violation) On an open connection, too, an abort waits for the next `Read`: for as long as none begins. -/
theorem abort_waits_for_read (n : Nat) :
    (run {} (.abort :: List.replicate n .tick)).aborts = 1 := by
  have : ∀ n, run {} (.abort :: List.replicate n .tick) = { now := 1 + n, aborts := 1, deadline := some 0, sets := 1 } := by
    intro n
    induction n with
    | zero => decide
    | succ n ih =>
      rw [List.replicate_succ', ← List.cons_append, run_append, ih]
      simp [run, step]; omega
  rw [this]

/-! ## Witnesses -/

example : CleanUse {} [.set 3, .begin, .tick, .data, .set 9, .begin, .tick] := by
  simp [CleanUse, Clean, step, stopTimer]
example : CleanUse {} [.set 3, .begin, .tick, .tick, .hit, .set 9, .begin, .data, .begin, .abort, .hitAbort] := by
  simp [CleanUse, Clean, step, stopTimer]
example : (run {} [.set 3, .begin, .tick, .tick, .hit, .set 9, .begin, .data, .begin, .abort, .hitAbort]).rets
    = [some (3, some 3), none, some (3, some 0)] := by decide

end Verif.Client.ApiDeadline
