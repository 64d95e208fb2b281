import Verif.Common
/-!
# C44: the accept loop (libcs/server/server.go:290-338)
-/
set_option linter.unusedSimpArgs false
set_option linter.unusedVariables false
namespace Verif.Util.Backoff

/-- What one iteration meets: the server is closing, or `Accept` returned. -/
inductive Outcome where
  /-- `s.closing` was set (checked before and after `Accept`) -/
  | closing
  | conn
  /-- a `net.Error` with `Timeout()` -/
  | temporary
  | other
deriving DecidableEq, Repr

/-- What the loop did. -/
inductive Act where
  /-- the connection is handed to its handler -/
  | handled
  /-- slept this many nanoseconds -/
  | slept (ns : Nat)
  | ended
deriving DecidableEq, Repr

def ms : Nat := 1000000

/-- libcs/server/server.go:318-325: the next delay. -/
def next (d : Nat) : Nat :=
  let d := if d = 0 then 5 * ms else d * 2
  if d > 1000 * ms then 1000 * ms else d

/-- libcs/server/server.go:303-337: the loop, from `tempDelay = d`. Nothing resets `tempDelay` after a success. -/
def loop : Nat → List Outcome → List Act
  | _, [] => []
  | _, .closing :: _ => [.ended]
  | d, .conn :: r => .handled :: loop d r
  | d, .temporary :: r => .slept (next d) :: loop (next d) r
  | _, .other :: _ => [.ended]

/-- libcs/server/server.go:290-338 `acceptLoop`. -/
def acceptLoop (os : List Outcome) : List Act := loop 0 os

/-- The delay after the `k`-th (k ≥ 1) temporary error: 5, 10, 20, ... ms, at most 1 s. -/
def delay (k : Nat) : Nat := min (5 * ms * 2 ^ (k - 1)) (1000 * ms)

theorem next_delay_succ (k : Nat) : next (delay (k + 1)) = delay (k + 2) := by
  have hnext : ∀ d, 0 < d → next d = min (d * 2) (1000 * ms) := by
    intro d hd
    have h0 : ¬ d = 0 := by omega
    simp only [next, if_neg h0]
    by_cases h : d * 2 > 1000 * ms
    · rw [if_pos h]; omega
    · rw [if_neg h]; omega
  have hpos : 0 < delay (k + 1) := by
    have : 0 < 2 ^ (k + 1 - 1) := Nat.pow_pos (by decide)
    unfold delay ms; omega
  rw [hnext _ hpos]
  unfold delay
  have hp : 0 < 2 ^ k := Nat.pow_pos (by decide)
  have h2 : 2 ^ (k + 2 - 1) = 2 ^ k * 2 := by rw [show k + 2 - 1 = k + 1 from by omega, Nat.pow_succ]
  have h3 : k + 1 - 1 = k := by omega
  rw [h2, h3]
  simp only [ms]
  omega

theorem loop_delay (k : Nat) (d : Nat) (hd : d = if k = 0 then 0 else delay k) (os : List Outcome)
    (i : Nat) (ns : Nat) (hi : (loop d os)[i]? = some (.slept ns)) :
    ns = delay (k + ((os.take (i + 1)).countP (· = .temporary))) := by
  induction os generalizing k d i with
  | nil => simp [loop] at hi
  | cons o os ih =>
    cases o with
    | closing => cases i <;> simp [loop] at hi
    | other => cases i <;> simp [loop] at hi
    | conn =>
      cases i with
      | zero => simp [loop] at hi
      | succ i =>
        simp only [loop, List.getElem?_cons_succ] at hi
        have := ih k d hd i hi
        simpa using this
    | temporary =>
      have hn : next d = delay (k + 1) := by
        cases k with
        | zero => simp at hd; subst hd; simp [next, delay, ms]
        | succ k => rw [if_neg (by omega)] at hd; rw [hd]; exact next_delay_succ k
      cases i with
      | zero => simp [loop] at hi; rw [← hi, hn]; simp
      | succ i =>
        simp only [loop, List.getElem?_cons_succ] at hi
        have := ih (k + 1) (next d) (by simp [hn]) i hi
        rw [this]
        simp only [List.take_succ_cons, List.countP_cons, decide_true, if_true]
        congr 1; omega

/-- C44 (what the code does): the n-th temporary error *since the loop started* sleeps 5 ms * 2^(n-1), at
most one second. -/
theorem backoff_delay (os : List Outcome) (i ns : Nat) (hi : (acceptLoop os)[i]? = some (.slept ns)) :
    ns = min (5 * ms * 2 ^ ((os.take (i + 1)).countP (· = .temporary) - 1)) (1000 * ms) ∧ 5 * ms ≤ ns ∧ ns ≤ 1000 * ms := by
  have := loop_delay 0 0 rfl os i ns hi
  rw [Nat.zero_add] at this
  refine ⟨this, ?_, ?_⟩
  · rw [this]; unfold delay
    have : 0 < 2 ^ ((os.take (i + 1)).countP (· = .temporary) - 1) := Nat.pow_pos (by decide)
    simp only [ms]; omega
  · rw [this]; unfold delay; omega

/-- C44 (first burst of errors): consecutive temporary errors from the start double the delay. -/
theorem backoff_doubles_partial (n : Nat) (rest : List Outcome) :
    (acceptLoop (List.replicate n .temporary ++ rest)).take n =
      (List.range n).map (fun k => .slept (min (5 * ms * 2 ^ k) (1000 * ms))) := by
  have key : ∀ n k d rest, d = (if k = 0 then 0 else delay k) →
      (loop d (List.replicate n .temporary ++ rest)).take n = (List.range n).map (fun j => .slept (delay (k + j + 1))) := by
    intro n
    induction n with
    | zero => intros; simp
    | succ n ih =>
      intro k d rest hd
      have hn : next d = delay (k + 1) := by
        cases k with
        | zero => simp at hd; subst hd; simp [next, delay, ms]
        | succ k => rw [if_neg (by omega)] at hd; rw [hd]; exact next_delay_succ k
      rw [List.replicate_succ, List.cons_append]
      simp only [loop, List.take_succ_cons]
      rw [ih (k + 1) _ rest (by simp [hn]), List.range_succ_eq_map, List.map_cons, List.map_map, hn]
      congr 1
      apply List.map_congr_left
      intro j _
      simp only [Function.comp, Act.slept.injEq]
      congr 1; omega
  have := key n 0 0 rest rfl
  unfold acceptLoop
  rw [this]
  apply List.map_congr_left
  intro j _
  simp [delay]

/-- C44 is violated: the delay is not reset after a success. After eight temporary errors, any number of
successes leave the next temporary error sleeping one second instead of 5 ms. -/
theorem delay_not_reset (n : Nat) :
    acceptLoop (List.replicate 8 .temporary ++ List.replicate n .conn ++ [.temporary]) =
      [5, 10, 20, 40, 80, 160, 320, 640].map (fun x => .slept (x * ms)) ++ List.replicate n .handled ++ [.slept (1000 * ms)] := by
  have h1 : ∀ n d, loop d (List.replicate n .conn ++ [.temporary]) = List.replicate n .handled ++ [.slept (next d)] := by
    intro n d
    induction n with
    | zero => simp [loop]
    | succ n ih => rw [List.replicate_succ, List.cons_append]; simp only [loop, ih]; rw [List.replicate_succ]; rfl
  simp only [acceptLoop, List.replicate, List.cons_append, List.nil_append, List.append_assoc, loop, h1]
  simp [next, ms]

/-- C44 (every connection is handled, nothing else ends the loop): up to the first fatal error or shutdown,
each accepted connection is handled, in order; then the loop ends. -/
theorem accept_all_until_fatal (os : List Outcome) (hos : ∀ o ∈ os, o = .conn ∨ o = .temporary) (o : Outcome)
    (ho : o = .closing ∨ o = .other) (rest : List Outcome) :
    acceptLoop (os ++ o :: rest) = acceptLoop os ++ [.ended] ∧
    (acceptLoop os).length = os.length ∧ (∀ i : Nat, (acceptLoop os)[i]? = some .handled ↔ os[i]? = some .conn) ∧
    Act.ended ∉ acceptLoop os := by
  have key : ∀ d, loop d (os ++ o :: rest) = loop d os ++ [.ended] ∧ (loop d os).length = os.length ∧
      (∀ i : Nat, (loop d os)[i]? = some .handled ↔ os[i]? = some .conn) ∧ Act.ended ∉ loop d os := by
    induction os with
    | nil => intro d; rcases ho with rfl | rfl <;> simp [loop]
    | cons x os ih =>
      intro d
      have ih := ih (fun o h => hos o (by simp [h]))
      rcases hos x (by simp) with rfl | rfl
      · obtain ⟨a, b, c, e⟩ := ih d
        refine ⟨by simp [loop, a], by simp [loop, b], ?_, by simp [loop, e]⟩
        intro i; cases i with
        | zero => simp [loop]
        | succ i => simpa [loop] using c i
      · obtain ⟨a, b, c, e⟩ := ih (next d)
        refine ⟨by simp [loop, a], by simp [loop, b], ?_, by simp [loop, e]⟩
        intro i; cases i with
        | zero => simp [loop]
        | succ i => simpa [loop] using c i
  exact key 0

/-- Non-vacuity. -/
example : acceptLoop [.conn, .temporary, .temporary, .conn, .other, .conn] =
    [.handled, .slept (5 * ms), .slept (10 * ms), .handled, .ended] := by decide

end Verif.Util.Backoff
