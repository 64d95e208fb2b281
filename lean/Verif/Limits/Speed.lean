/-!
# Per-client speed limit (libcs/server/client.go:462-484)

`speedLimit` runs under `speedMutex`, so concurrent calls of one direction are a sequence.
-/
namespace Verif.Limits

/-- libcs/server/client.go:466-484 `speedLimit` on the counter of one direction: the new counter and the seconds
slept. `uint32` addition wraps; the product `sleepSeconds * speed` does not exceed the counter. The caller
checks `speed > 0` (libcs/server/client.go:462-464). -/
def speedLimit (speed count len : Nat) : Nat × Nat :=
  let c := (count + len) % 4294967296
  if c < speed then (c, 0)
  else
    let sleep := c / speed
    (c - sleep * speed, sleep)

/-- A sequence of transfers: final counter and total seconds slept. -/
def transfers (speed : Nat) : Nat → List Nat → Nat × Nat
  | count, [] => (count, 0)
  | count, l :: ls =>
    let r := speedLimit speed count l
    let r' := transfers speed r.1 ls
    (r'.1, r.2 + r'.2)

theorem speedLimit_spec (speed count len : Nat) (hs : 0 < speed) (hc : count < speed)
    (h : speed + len ≤ 4294967296) :
    (speedLimit speed count len).1 < speed ∧
    count + len = speed * (speedLimit speed count len).2 + (speedLimit speed count len).1 := by
  unfold speedLimit
  have hm : (count + len) % 4294967296 = count + len := Nat.mod_eq_of_lt (by omega)
  simp only [hm]
  split
  · constructor <;> omega
  · have hd := Nat.div_add_mod (count + len) speed
    have hl := Nat.mod_lt (count + len) hs
    rw [Nat.mul_comm] at hd
    have : (count + len) / speed * speed = speed * ((count + len) / speed) := Nat.mul_comm _ _
    simp only
    constructor <;> omega

theorem transfers_spec (speed : Nat) (ls : List Nat) (count : Nat) (hs : 0 < speed) (hc : count < speed)
    (h : ∀ l ∈ ls, speed + l ≤ 4294967296) :
    (transfers speed count ls).1 < speed ∧
    count + ls.sum = speed * (transfers speed count ls).2 + (transfers speed count ls).1 := by
  induction ls generalizing count with
  | nil => simp [transfers, hc]
  | cons l ls ih =>
    obtain ⟨h1, h2⟩ := speedLimit_spec speed count l hs hc (h l (by simp))
    obtain ⟨h3, h4⟩ := ih _ h1 (fun x hx => h x (by simp [hx]))
    simp only [transfers, List.sum_cons]
    refine ⟨h3, ?_⟩
    rw [Nat.mul_add]; omega

/-- C20, for transfers that cannot overflow the 32-bit counter (every transfer of at most `2^32 - speed`
bytes; the program's own buffers are 4 KiB): whatever the sequence of transfers, the bytes transferred are
at least `speed` times the seconds slept and less than one second's worth more. What is missing: frames
announcing more bytes than that, see `speed_limit_bypassed`. -/
theorem speed_limit_conserves_partial (speed : Nat) (hs : 0 < speed) (ls : List Nat)
    (h : ∀ l ∈ ls, l ≤ 4294967296 - speed) (hsp : speed ≤ 4294967296) :
    speed * (transfers speed 0 ls).2 ≤ ls.sum ∧ ls.sum < speed * ((transfers speed 0 ls).2 + 1) := by
  obtain ⟨h1, h2⟩ := transfers_spec speed ls 0 hs hs (fun l hl => by have := h l hl; omega)
  rw [Nat.mul_add]
  constructor <;> omega

/-- With any limit below `2^32 - 4096` no sequence of program-sized transfers overflows. -/
theorem speed_limit_conserves_own_buffers_partial (speed : Nat) (hs : 0 < speed) (hsp : speed ≤ 4294963200)
    (ls : List Nat) (h : ∀ l ∈ ls, l ≤ 4096) :
    speed * (transfers speed 0 ls).2 ≤ ls.sum ∧ ls.sum < speed * ((transfers speed 0 ls).2 + 1) :=
  speed_limit_conserves_partial speed hs ls (fun l hl => by have := h l hl; omega) (by omega)

example : transfers 1000 0 [600, 600, 2500, 100] = (800, 3) := by decide

/-- C20 is false in general: under every limit of at least 2 bytes per second (and below `2^32 - 1`), a client
that sends one byte and then a frame of `2^32 - 1` bytes, again and again, is never delayed. -/
theorem speed_limit_bypassed (speed : Nat) (hs : 1 < speed) (n : Nat) :
    (transfers speed 0 (List.replicate n [1, 4294967295]).flatten) = (0, 0) ∧
    (List.replicate n [1, 4294967295]).flatten.sum = n * 4294967296 := by
  induction n with
  | zero => simp [transfers]
  | succ n ih =>
    simp only [List.replicate_succ, List.flatten_cons]
    have h1 : speedLimit speed 0 1 = (1, 0) := by unfold speedLimit; simp only; rw [if_pos (by omega)]
    have h2 : speedLimit speed 1 4294967295 = (0, 0) := by unfold speedLimit; simp only; rw [if_pos (by omega)]
    refine ⟨?_, ?_⟩
    · simp only [List.cons_append, List.nil_append, transfers, h1, h2, ih.1]
    · simp only [List.cons_append, List.nil_append, List.sum_cons, ih.2]; omega

end Verif.Limits
