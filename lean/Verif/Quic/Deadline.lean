import Verif.Common
set_option linter.unusedSimpArgs false
set_option linter.unusedVariables false
/-!
# C96: time limits on connections of the BBR QUIC transport
(libcs/conn/msquic/conneciton.go:109-122 `SetDeadline`, `SetReadDeadline`, `SetWriteDeadline`;
connection.cpp:133-137 `SetIdleTimeout`)

Times are nanoseconds, as integers.
-/
namespace Verif.Quic.Deadline

def maxDur : Int := 9223372036854775807
def minDur : Int := -9223372036854775808

/-- Go's `time.Since(t)` at time `now`: the difference, cut to the range of a `Duration`. -/
def since (now t : Int) : Int := max minDur (min maxDur (now - t))

/-- conneciton.go:111-112: `time.Since(t) / time.Millisecond` (Go's division truncates), converted to `uint64_t`. -/
def idleArg (now t : Int) : Nat := (Int.tdiv (since now t) 1000000 % 18446744073709551616).toNat

/-- What the library makes of the new idle time-out: `reject` says whether it refuses numbers above 2^62-1 (then the old
setting stays) or takes them. -/
def newIdle (reject : Bool) (old arg : Nat) : Nat :=
  if reject = true ∧ arg > 4611686018427387903 then old else arg

/-- When the library closes a connection on which nothing has come since `last` (0 means never), in nanoseconds. -/
def closesAt (idle : Nat) (last : Int) : Option Int :=
  if idle = 0 then none else some (last + idle * 1000000)

/-- `Read` on a silent connection after `SetReadDeadline(t)` at `now`: when it fails, if it ever does.
`tcp`: what the contract of `net.Conn` says, and TCP and quic-go do. -/
def readFailsTcp (now t : Int) : Option Int := some (max now t)
def readFailsBbr (reject : Bool) (old : Nat) (now t : Int) : Option Int :=
  closesAt (newIdle reject old (idleArg now t)) now

theorem since_future {now t : Int} (h : now ≤ t) (hb : t - now ≤ 9223372036854775808) : since now t = now - t := by
  unfold since maxDur minDur; omega

/-- A deadline `d` milliseconds ahead (up to 292 years) becomes an idle time-out of `2^64 - d` milliseconds. -/
theorem future_deadline (now : Int) (d : Nat) (hd : 0 < d) (hb : d ≤ 9223372036854) :
    idleArg now (now + d * 1000000) = 18446744073709551616 - d := by
  have h1 : since now (now + d * 1000000) = -(d * 1000000 : Int) := by
    unfold since maxDur minDur; omega
  unfold idleArg
  rw [h1, Int.neg_tdiv, Int.mul_tdiv_cancel _ (by decide)]
  omega

theorem tdiv_bounds (x : Int) (h : 0 ≤ x) : Int.tdiv (-x) 1000000 = -(x / 1000000) := by
  rw [Int.neg_tdiv, Int.tdiv_eq_ediv_of_nonneg h]

/-- (violation) **No deadline in the future is ever kept**: whatever it is (at least a millisecond ahead, at most 292 years), and
whatever the library does with such a number, a silent connection fails no earlier than with the old setting, or after more than
292 million years, or never. -/
theorem future_deadline_not_kept (reject : Bool) (old : Nat) (now t : Int) (h : now + 1000000 ≤ t)
    (hb : t ≤ now + 9223372036854775807) :
    readFailsBbr reject old now t = closesAt old now ∨
    ∃ f, readFailsBbr reject old now t = some f ∧ now + 9223372036854775807 * 1000000 ≤ f := by
  have h1 : since now t = -(t - now) := by unfold since maxDur minDur; omega
  have h2 : (18446744073709551616 : Nat) - 9223372036855 ≤ idleArg now t := by
    unfold idleArg
    rw [h1, tdiv_bounds _ (by omega)]
    omega
  unfold readFailsBbr newIdle
  split
  · exact Or.inl rfl
  · right
    have h3 : idleArg now t ≠ 0 := by omega
    refine ⟨now + idleArg now t * 1000000, by simp [closesAt, h3], ?_⟩
    have : (9223372036854775807 : Int) ≤ (idleArg now t : Int) := by omega
    omega

/-- (violation) So with a time limit of 10 seconds and the initial setting of the transport (100 s, msquicConn.go:8), a
silent client is cut after 100 seconds instead of 10, for every time of the call. -/
theorem ten_seconds_become_hundred (now : Int) :
    readFailsTcp now (now + 10 * 1000000000) = some (now + 10 * 1000000000) ∧
    readFailsBbr true 100000 now (now + 10 * 1000000000) = some (now + 100 * 1000000000) := by
  have h := future_deadline now 10000 (by decide) (by decide)
  have e : now + 10 * 1000000000 = now + ((10000 : Nat) : Int) * 1000000 := by omega
  constructor
  · unfold readFailsTcp; congr 1; omega
  · unfold readFailsBbr
    rw [e, h]
    simp [newIdle, closesAt]

/-- (violation) Clearing the deadline (the zero time, more than 292 years ago) sets one of 292 years.
C96: what holds of the claim on this transport - no read of a silent connection fails within any time that matters. Missing: every other deadline, where it is false (`future_deadline_not_kept`, `past_deadline`). -/
theorem cleared_deadline_partial (now t : Int) (h : t + 9223372036854775807 ≤ now) :
    idleArg now t = 9223372036854 := by
  have : since now t = 9223372036854775807 := by unfold since maxDur minDur; omega
  unfold idleArg
  rw [this]
  rfl

/-- (violation) A deadline that passed `p` ms ago does not make reads fail, but lets them wait another `p` ms. -/
theorem past_deadline (now : Int) (p : Nat) (hb : p ≤ 9223372036854) :
    idleArg now (now - p * 1000000) = p := by
  have h1 : since now (now - p * 1000000) = (p * 1000000 : Int) := by
    unfold since maxDur minDur; omega
  unfold idleArg
  rw [h1, Int.mul_tdiv_cancel _ (by decide)]
  omega

/-- (violation) A deadline less than a millisecond away, on either side, switches the time limit off. -/
theorem deadline_now_is_never (reject : Bool) (old : Nat) (now t : Int) (h1 : now - t < 1000000) (h2 : t - now < 1000000) :
    readFailsBbr reject old now t = none := by
  have h0 : since now t = now - t := by unfold since maxDur minDur; omega
  have e : Int.tdiv (now - t) 1000000 = 0 := by
    by_cases hs : 0 ≤ now - t
    · rw [Int.tdiv_eq_ediv_of_nonneg hs]; omega
    · have := tdiv_bounds (t - now) (by omega)
      have e2 : -(t - now) = now - t := by omega
      rw [e2] at this
      rw [this]; omega
  have ei : idleArg now t = 0 := by
    unfold idleArg
    rw [h0, e]
    rfl
  unfold readFailsBbr
  rw [ei]
  simp [newIdle, closesAt]

example : idleArg 0 30000000000 = 18446744073709521616 := by decide
example : readFailsTcp 5 30 = some 30 := by decide
example : (0 : Int) + 1000000 ≤ 30000000000 ∧ (30000000000 : Int) ≤ 0 + 9223372036854775807 := by decide

end Verif.Quic.Deadline
