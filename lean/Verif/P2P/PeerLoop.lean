import Verif.Common
set_option linter.unusedSimpArgs false
set_option linter.unusedVariables false
/-!
# C60, C61: the life of a P2P process (bin/src/peer/conn.rs:165-219, 344-383; bin/src/peer/mod.rs:131-154)

`handle` waits in a loop for a message on standard input, the end of the peer connection, or a timeout, and opens and
closes of data channels happen meanwhile. The runtime is single-threaded (bin/src/peer/mod.rs:34-38), so each callback
is one step. Standard input is consumed byte by byte (any segmentation); time is in seconds.
-/
namespace Verif.P2P.PeerLoop
open Verif

inductive End where
  /-- `NoChannelInPeerConnectionTimeout` -/
  | idle
  /-- the peer connection failed or was closed -/
  | peer
  /-- a message that is too long or that cannot be handled -/
  | bad
deriving DecidableEq, Repr

structure St where
  now : Nat
  /-- when the current `sleep` ends -/
  dl : Nat
  /-- `channel_count`, `self.no_channel_id`, the loop's own `no_channel_id` -/
  count : Nat
  ncid : Nat
  loc : Nat
  /-- what the current call of `read_json` has consumed -/
  buf : Bytes
  /-- the messages handled -/
  handled : List Bytes
  ended : Option End
  /-- ghost: the last time a channel was open (0: the start) -/
  busy : Nat
  /-- ghost: all bytes read from standard input -/
  read : Bytes
deriving DecidableEq, Repr

/-- `timeout` is the configured idle timeout (bin/src/peer/conn.rs:134-135). -/
def eff (timeout : Nat) : Nat := max timeout 5

def init (T : Nat) : St := ⟨0, T, 0, 0, 0, [], [], none, 0, []⟩

inductive Ev where
  | wait (d : Nat)
  | fire
  | open_
  | close
  | byte (b : UInt8)
  | peerEnd
deriving DecidableEq, Repr

/-- The length announced by the first four bytes (bin/src/peer/mod.rs:137-142). -/
def announced : Bytes → Option Nat
  | a :: b :: c :: d :: _ => some (rd32 a b c d)
  | _ => none

/-- One step. `handles m`: the message is valid JSON and the engine accepts it. Steps that cannot happen leave the state
as it is: time does not pass the end of the sleep, and nothing happens after the end. -/
def step (T : Nat) (handles : Bytes → Bool) (s : St) : Ev → St
  | e =>
    if s.ended ≠ none then s
    else match e with
    | .wait d => if s.now + d ≤ s.dl then { s with now := s.now + d } else s
    -- bin/src/peer/conn.rs:369-379: the pending `read_json` is dropped, with what it has consumed
    | .fire =>
      if s.now < s.dl then s
      else if s.count = 0 then
        if s.loc = s.ncid then { s with ended := some .idle }
        else { s with loc := s.ncid, dl := s.now + T, buf := [] }
      else { s with dl := s.now + T, buf := [] }
    -- bin/src/peer/conn.rs:165-171
    | .open_ => { s with count := s.count + 1 }
    -- bin/src/peer/conn.rs:211-218
    | .close =>
      if s.count = 0 then s
      else { s with
        count := s.count - 1
        ncid := if s.count = 1 then s.ncid + 1 else s.ncid
        busy := s.now }
    -- bin/src/peer/mod.rs:131-154, bin/src/peer/conn.rs:356-358, 384-457; then the loop starts again
    | .byte b =>
      match announced (s.buf ++ [b]) with
      | none => { s with buf := s.buf ++ [b], read := s.read ++ [b] }
      | some n =>
        if n > 8192 then { s with buf := s.buf ++ [b], read := s.read ++ [b], ended := some .bad }
        else if (s.buf ++ [b]).length < 4 + n then { s with buf := s.buf ++ [b], read := s.read ++ [b] }
        else if handles ((s.buf ++ [b]).drop 4) then
          { s with
            buf := []
            read := s.read ++ [b]
            handled := s.handled ++ [(s.buf ++ [b]).drop 4]
            dl := s.now + T }
        else { s with buf := s.buf ++ [b], read := s.read ++ [b], ended := some .bad }
    -- bin/src/peer/conn.rs:359-368
    | .peerEnd => { s with ended := some .peer }

def run (T : Nat) (handles : Bytes → Bool) (s : St) : List Ev → St
  | [] => s
  | e :: es => run T handles (step T handles s e) es

/-! ## C60: the idle timeout -/

structure Inv (T : Nat) (s : St) : Prop where
  locLe : s.loc ≤ s.ncid
  nowLe : s.ended = none → s.now ≤ s.dl
  dlLe : s.dl ≤ s.now + T
  busyLe : s.busy ≤ s.now
  quiet : s.count = 0 → s.ncid = s.loc → s.busy + T ≤ s.dl
  idle : s.ended = some .idle → s.count = 0 ∧ s.busy + T ≤ s.now

theorem inv_init (T : Nat) : Inv T (init T) := by
  constructor <;> simp [init]

theorem inv_step {T : Nat} {hd : Bytes → Bool} {s : St} (h : Inv T s) (e : Ev) : Inv T (step T hd s e) := by
  obtain ⟨i1, i2, i3, i4, i5, i6⟩ := h
  unfold step
  dsimp only
  by_cases hen : s.ended ≠ none
  · rw [if_pos hen]; exact ⟨i1, i2, i3, i4, i5, i6⟩
  rw [if_neg hen]
  have hen : s.ended = none := by simpa using hen
  have i2 := i2 hen
  cases e with
  | wait d =>
    dsimp only
    split
    · rename_i hd'
      refine ⟨i1, fun _ => hd', ?_, ?_, i5, (fun x => by simp only [hen] at x; cases x)⟩ <;> dsimp only <;> omega
    · exact ⟨i1, fun _ => i2, i3, i4, i5, i6⟩
  | fire =>
    dsimp only
    split
    · exact ⟨i1, fun _ => i2, i3, i4, i5, i6⟩
    · rename_i hnd
      split
      · rename_i hc
        split
        · rename_i hl
          refine ⟨i1, (fun x => by cases x), i3, i4, i5, fun _ => ⟨hc, ?_⟩⟩
          have := i5 hc hl.symm
          dsimp only; omega
        · refine ⟨Nat.le_refl _, fun _ => ?_, ?_, i4, fun _ _ => ?_, (fun x => by simp only [hen] at x; cases x)⟩ <;>
            dsimp only <;> omega
      · rename_i hc
        refine ⟨i1, fun _ => ?_, ?_, i4, fun x _ => absurd x hc, (fun x => by simp only [hen] at x; cases x)⟩ <;>
          dsimp only <;> omega
  | open_ =>
    refine ⟨i1, fun _ => i2, i3, i4, (fun x => by simp at x), (fun x => by simp only [hen] at x; cases x)⟩
  | close =>
    dsimp only
    split
    · exact ⟨i1, fun _ => i2, i3, i4, i5, i6⟩
    · rename_i hc
      refine ⟨?_, fun _ => i2, i3, Nat.le_refl _, ?_, (fun x => by simp only [hen] at x; cases x)⟩
      · dsimp only; split <;> omega
      · intro h1 h2
        dsimp only at h1 h2
        rw [if_pos (by omega)] at h2
        omega
  | byte b =>
    dsimp only
    cases announced (s.buf ++ [b]) with
    | none => exact ⟨i1, fun _ => i2, i3, i4, i5, i6⟩
    | some n =>
      dsimp only
      split
      · exact ⟨i1, (fun x => by cases x), i3, i4, i5, (fun x => by cases x)⟩
      · split
        · exact ⟨i1, fun _ => i2, i3, i4, i5, i6⟩
        · split
          · refine ⟨i1, fun _ => ?_, Nat.le_refl _, i4, fun x y => ?_, i6⟩
            · dsimp only; omega
            · have := i5 x y; dsimp only; omega
          · exact ⟨i1, (fun x => by cases x), i3, i4, i5, (fun x => by cases x)⟩
  | peerEnd => exact ⟨i1, (fun x => by cases x), i3, i4, i5, (fun x => by cases x)⟩

theorem inv_run {T : Nat} {hd : Bytes → Bool} : ∀ (es : List Ev) {s : St}, Inv T s → Inv T (run T hd s es)
  | [], _, h => h
  | e :: es, _, h => inv_run es (inv_step h e)

/-- **C60**: the process gives up for idleness only when no channel is open and none has been for the whole timeout. -/
theorem idle_only_when_quiet (T : Nat) (hd : Bytes → Bool) (es : List Ev) (h : (run T hd (init T) es).ended = some .idle) :
    (run T hd (init T) es).count = 0 ∧ (run T hd (init T) es).busy + T ≤ (run T hd (init T) es).now :=
  (inv_run es (inv_init T)).idle h

/-- **C60**: the timeout in effect is at least five seconds. -/
theorem timeout_at_least_five (t : Nat) : 5 ≤ eff t ∧ (5 ≤ t → eff t = t) := by
  unfold eff; omega

/-- Only time passes. -/
def quietEv : Ev → Prop
  | .wait _ => True
  | .fire => True
  | _ => False

theorem ended_stays {T hd} {s : St} (h : s.ended ≠ none) (es : List Ev) : (run T hd s es) = s := by
  induction es with
  | nil => rfl
  | cons e es ih => unfold run; unfold step; dsimp only; rw [if_pos h]; exact ih

/-- The latest time a quiet process can reach: each `fire` costs one of the chances left. -/
theorem quiet_bound {T hd} (es : List Ev) : ∀ (s : St), (∀ e ∈ es, quietEv e) → s.ended = none → s.now ≤ s.dl →
    s.count = 0 → (run T hd s es).ended = none →
    (run T hd s es).now ≤ s.dl + (if s.loc = s.ncid then 0 else T) := by
  induction es with
  | nil => intro s _ _ hn _ _; simp only [run]; omega
  | cons e es ih =>
    intro s hq he hn hc hend
    have hq' := fun x hx => hq x (List.mem_cons_of_mem _ hx)
    have hqe := hq e List.mem_cons_self
    simp only [run] at hend ⊢
    cases e with
    | wait d =>
      by_cases hd' : s.now + d ≤ s.dl
      · have hs : step T hd s (.wait d) = { s with now := s.now + d } := by
          unfold step; dsimp only; rw [if_neg (by simp [he]), if_pos hd']
        rw [hs] at hend ⊢
        exact ih { s with now := s.now + d } hq' he hd' hc hend
      · have hs : step T hd s (.wait d) = s := by
          unfold step; dsimp only; rw [if_neg (by simp [he]), if_neg hd']
        rw [hs] at hend ⊢
        exact ih s hq' he hn hc hend
    | fire =>
      by_cases hlt : s.now < s.dl
      · have hs : step T hd s .fire = s := by
          unfold step; dsimp only; rw [if_neg (by simp [he]), if_pos hlt]
        rw [hs] at hend ⊢
        exact ih s hq' he hn hc hend
      · by_cases hl : s.loc = s.ncid
        · have hs : step T hd s .fire = { s with ended := some .idle } := by
            unfold step; dsimp only; rw [if_neg (by simp [he]), if_neg hlt, if_pos hc, if_pos hl]
          rw [hs] at hend
          rw [ended_stays (by simp)] at hend
          cases hend
        · have hs : step T hd s .fire = { s with loc := s.ncid, dl := s.now + T, buf := [] } := by
            unfold step; dsimp only; rw [if_neg (by simp [he]), if_neg hlt, if_pos hc, if_neg hl]
          rw [hs] at hend ⊢
          have := ih { s with loc := s.ncid, dl := s.now + T, buf := [] } hq' he (by dsimp only; omega) hc hend
          simp only [if_true] at this
          rw [if_neg hl]
          omega
    | open_ => exact absurd hqe id
    | close => exact absurd hqe id
    | byte b => exact absurd hqe id
    | peerEnd => exact absurd hqe id

/-- **C60**: a process without open channels to which nothing happens any more ends within two timeouts: if it is still
there, at most that much time has passed. -/
theorem quiet_process_ends (T : Nat) (hd : Bytes → Bool) (before after : List Ev) (hq : ∀ e ∈ after, quietEv e)
    (hc : (run T hd (init T) before).count = 0)
    (halive : (run T hd (run T hd (init T) before) after).ended = none) :
    (run T hd (run T hd (init T) before) after).now ≤ (run T hd (init T) before).now + 2 * T := by
  have h := inv_run (hd := hd) before (inv_init T)
  generalize run T hd (init T) before = s at *
  have he : s.ended = none := by
    cases hx : s.ended with
    | none => rfl
    | some x => rw [ended_stays (by simp [hx])] at halive; rw [hx] at halive; cases halive
  have := quiet_bound after s hq he (h.nowLe he) hc halive
  have h3 := h.dlLe
  split at this <;> omega

/-- One round of the timer while a channel is open: the process goes on and the timer is set again. -/
theorem busy_round {T : Nat} {hd : Bytes → Bool} {s : St} (he : s.ended = none) (hn : s.now ≤ s.dl) (hc : s.count ≠ 0) :
    run T hd s [.wait (s.dl - s.now), .fire] = { s with now := s.dl, dl := s.dl + T, buf := [] } := by
  have h1 : step T hd s (.wait (s.dl - s.now)) = { s with now := s.dl } := by
    unfold step; dsimp only
    rw [if_neg (by simp [he]), if_pos (by omega)]
    congr 1; omega
  simp only [run]
  rw [h1]
  unfold step; dsimp only
  rw [if_neg (by simp [he]), if_neg (by omega), if_neg hc]

/-- **C60**: while a channel is open the process lives on, however long nothing happens on it: whatever happened before,
any length of time can pass with the process running. -/
theorem open_channel_keeps_running (T : Nat) (hT : 0 < T) (hd : Bytes → Bool) (before : List Ev)
    (he : (run T hd (init T) before).ended = none) (hc : (run T hd (init T) before).count ≠ 0) (k : Nat) :
    ∃ after, (∀ e ∈ after, quietEv e) ∧ (run T hd (run T hd (init T) before) after).ended = none ∧
      (run T hd (init T) before).now + k ≤ (run T hd (run T hd (init T) before) after).now := by
  have h := (inv_run (hd := hd) before (inv_init T)).nowLe
  generalize run T hd (init T) before = s at *
  have key : ∀ (k : Nat) (s : St), s.ended = none → s.count ≠ 0 → s.now ≤ s.dl →
      ∃ after, (∀ e ∈ after, quietEv e) ∧ (run T hd s after).ended = none ∧ s.dl + k * T ≤ (run T hd s after).dl ∧
        (run T hd s after).count ≠ 0 ∧ (run T hd s after).now ≤ (run T hd s after).dl ∧
        (run T hd s after).now + T ≥ (run T hd s after).dl ∨ k = 0 := by
    intro k
    induction k with
    | zero => intro s _ _ _; exact ⟨[], Or.inr rfl⟩
    | succ k ih =>
      intro s he hc hn
      have hb := busy_round (T := T) (hd := hd) he hn hc
      have run_append : ∀ (a b : List Ev) (s : St), run T hd s (a ++ b) = run T hd (run T hd s a) b := by
        intro a
        induction a with
        | nil => intro b s; rfl
        | cons x a ih => intro b s; exact ih b _
      by_cases hk : k = 0
      · subst hk
        refine ⟨[.wait (s.dl - s.now), .fire], Or.inl ⟨?_, ?_, ?_, ?_, ?_, ?_⟩⟩
        · intro e he'; simp only [List.mem_cons, List.not_mem_nil, or_false] at he'; rcases he' with rfl | rfl <;> trivial
        · rw [hb]; exact he
        · rw [hb]; simp
        · rw [hb]; exact hc
        · rw [hb]; simp
        · rw [hb]; simp
      · obtain ⟨after, ha⟩ := ih { s with now := s.dl, dl := s.dl + T, buf := [] } he hc (by simp)
        rcases ha with ⟨q, a1, a2, a3, a4, a5⟩ | ha
        · refine ⟨[.wait (s.dl - s.now), .fire] ++ after, Or.inl ⟨?_, ?_, ?_, ?_, ?_, ?_⟩⟩
          · intro e he'
            simp only [List.mem_append, List.mem_cons, List.not_mem_nil, or_false] at he'
            rcases he' with (rfl | rfl) | he'
            · trivial
            · trivial
            · exact q e he'
          · rw [run_append, hb]; exact a1
          · rw [run_append, hb]
            have : s.dl + (k + 1) * T = s.dl + T + k * T := by rw [Nat.add_mul]; omega
            rw [this]; exact a2
          · rw [run_append, hb]; exact a3
          · rw [run_append, hb]; exact a4
          · rw [run_append, hb]; exact a5
        · exact absurd ha hk
  obtain ⟨after, ha⟩ := key (k + 1) s he hc (h he)
  rcases ha with ⟨q, a1, a2, a3, a4, a5⟩ | ha
  · refine ⟨after, q, a1, ?_⟩
    have h1 : (k + 1) * T = k * T + T := by rw [Nat.add_mul]; omega
    have h2 : k ≤ k * T := Nat.le_mul_of_pos_right k hT
    have := h he
    omega
  · omega

/-- Time can in fact pass: a quiet process does reach its end. -/
theorem quiet_example : (run 5 (fun _ => true) (init 5) [.open_, .wait 3, .close, .wait 2, .fire, .wait 5, .fire]).ended =
    some .idle ∧ (run 5 (fun _ => true) (init 5) [.open_, .wait 5, .fire, .wait 5, .fire]).ended = none := by decide

/-! ## C61: the messages -/

/-- The wire form of messages: four length bytes, then the message. -/
def frame (m : Bytes) : Bytes := be32 m.length ++ m

/-- No timeout strikes in the middle of a message. -/
def undisturbed (T : Nat) (hd : Bytes → Bool) (s : St) : List Ev → Prop
  | [] => True
  | e :: es => (e = .fire → s.buf = []) ∧ undisturbed T hd (step T hd s e) es

theorem announced_frame {b : Bytes} {n : Nat} (h : announced b = some n) (hn : n ≤ 8192) (hl : b.length = 4 + n) :
    b = frame (b.drop 4) := by
  match b, h with
  | a :: c :: d :: e :: r, h =>
    simp only [announced, Option.some.injEq, rd32] at h
    simp only [List.length_cons] at hl
    have hr : r.length = n := by omega
    have e1 := a.toNat_lt; have e2 := c.toNat_lt; have e3 := d.toNat_lt; have e4 := e.toNat_lt
    simp only [List.drop_succ_cons, List.drop_zero, frame, hr, be32, List.cons_append, List.nil_append,
      List.cons.injEq, and_true]
    subst h
    refine ⟨?_, ?_, ?_, ?_⟩ <;> apply UInt8.toNat_inj.mp <;> simp <;> omega

def frames (ms : List Bytes) : Bytes := ms.flatMap frame

/-- Not yet a whole message. -/
def Incomplete (b : Bytes) : Prop := ∀ n, announced b = some n → n ≤ 8192 ∧ b.length < 4 + n

theorem announced_append {b : Bytes} {n : Nat} (h : announced b = some n) (r : Bytes) : announced (b ++ r) = some n := by
  match b, h with
  | a :: c :: d :: e :: r', h => simpa [announced] using h

theorem announced_none {b : Bytes} (h : announced b = none) : b.length < 4 := by
  match b, h with
  | [], _ => simp
  | [_], _ => simp
  | [_, _], _ => simp
  | [_, _, _], _ => simp
  | a :: c :: d :: e :: r, h => simp [announced] at h

theorem announced_of_frame {m : Bytes} (h : m.length < 4294967296) (r : Bytes) : announced (frame m ++ r) = some m.length := by
  exact congrArg some (rd32_be32 h)

structure MInv (hd : Bytes → Bool) (s : St) : Prop where
  read : s.read = frames s.handled ++ s.buf
  inc : s.ended ≠ some .bad → Incomplete s.buf
  bad : s.ended = some .bad → (∃ n, announced s.buf = some n ∧ n > 8192) ∨ (∃ m, s.buf = frame m ∧ hd m = false ∧ m.length ≤ 8192)
  ok : ∀ m ∈ s.handled, m.length ≤ 8192

theorem incomplete_nil : Incomplete [] := by intro n h; cases h

theorem minv_init (T : Nat) (hd : Bytes → Bool) : MInv hd (init T) :=
  ⟨rfl, fun _ => incomplete_nil, (fun h => by cases h), by simp [init]⟩

theorem minv_step {T : Nat} {hd : Bytes → Bool} {s : St} (h : MInv hd s) {e : Ev} (hf : e = .fire → s.buf = []) :
    MInv hd (step T hd s e) := by
  unfold step
  dsimp only
  by_cases hen : s.ended ≠ none
  · rw [if_pos hen]; exact h
  rw [if_neg hen]
  have hen : s.ended = none := by simpa using hen
  have hinc := h.inc (by rw [hen]; simp)
  have hbad : ∀ {P : Prop}, s.ended = some .bad → P := fun x => by rw [hen] at x; cases x
  cases e with
  | wait d => dsimp only; split <;> exact ⟨h.read, fun _ => hinc, fun x => hbad x, h.ok⟩
  | fire =>
    have hb := hf rfl
    have hr : s.read = frames s.handled ++ [] := by rw [← hb]; exact h.read
    dsimp only
    split
    · exact h
    · split
      · split
        · exact ⟨h.read, fun _ => hinc, (fun x => by cases x), h.ok⟩
        · exact ⟨hr, fun _ => incomplete_nil, fun x => hbad x, h.ok⟩
      · exact ⟨hr, fun _ => incomplete_nil, fun x => hbad x, h.ok⟩
  | open_ => exact ⟨h.read, fun _ => hinc, fun x => hbad x, h.ok⟩
  | close => dsimp only; split <;> exact ⟨h.read, fun _ => hinc, fun x => hbad x, h.ok⟩
  | peerEnd => exact ⟨h.read, fun _ => hinc, (fun x => by cases x), h.ok⟩
  | byte b =>
    have hr : s.read ++ [b] = frames s.handled ++ (s.buf ++ [b]) := by rw [h.read, List.append_assoc]
    dsimp only
    cases ha : announced (s.buf ++ [b]) with
    | none =>
      exact ⟨hr, (fun _ n hn => by dsimp only at hn; rw [ha] at hn; cases hn), fun x => hbad x, h.ok⟩
    | some n =>
      have hlen : (s.buf ++ [b]).length ≤ 4 + n := by
        cases hb : announced s.buf with
        | none => have := announced_none hb; simp; omega
        | some n' =>
          have h1 := hinc n' hb
          have h2 := announced_append hb [b]
          rw [ha] at h2; cases h2
          simp; omega
      dsimp only
      split
      · rename_i hbig
        exact ⟨hr, fun x => absurd rfl x, fun _ => Or.inl ⟨n, ha, hbig⟩, h.ok⟩
      · rename_i hsm
        split
        · rename_i hlt
          refine ⟨hr, (fun _ m hm => ?_), fun x => hbad x, h.ok⟩
          dsimp only at hm ⊢
          rw [ha] at hm; cases hm
          exact ⟨by omega, hlt⟩
        · rename_i hge
          have hfr := announced_frame ha (by omega) (by omega)
          have hdl : ((s.buf ++ [b]).drop 4).length ≤ 8192 := by rw [List.length_drop]; omega
          split
          · refine ⟨?_, fun _ => incomplete_nil, fun x => hbad x, ?_⟩
            · dsimp only
              rw [hr, frames, frames, List.flatMap_append, List.append_assoc, List.flatMap_cons, List.flatMap_nil,
                List.append_nil, List.append_nil, ← hfr]
            · intro m hm
              rcases List.mem_append.mp hm with hm | hm
              · exact h.ok m hm
              · rw [List.mem_singleton] at hm; rw [hm]; exact hdl
          · rename_i hnh
            exact ⟨hr, fun x => absurd rfl x, fun _ => Or.inr ⟨_, hfr, by simpa using hnh, hdl⟩, h.ok⟩

theorem minv_run {T : Nat} {hd : Bytes → Bool} : ∀ (es : List Ev) {s : St}, MInv hd s → undisturbed T hd s es →
    MInv hd (run T hd s es)
  | [], _, h, _ => h
  | e :: es, _, h, hu => minv_run es (minv_step h hu.1) hu.2

theorem frame_inj {a b r r' : Bytes} (ha : a.length < 4294967296) (hb : b.length < 4294967296)
    (h : frame a ++ r = frame b ++ r') : a = b ∧ r = r' := by
  have h1 := announced_of_frame ha r
  rw [h, announced_of_frame hb r'] at h1
  have hl : a.length = b.length := (Option.some.inj h1).symm
  unfold frame at h
  rw [hl, List.append_assoc, List.append_assoc] at h
  have := List.append_cancel_left h
  have h2 := List.append_inj this hl
  exact h2

/-- Reading frames of `ms`: the messages handled are the first of `ms`, and what follows agrees. -/
theorem handled_prefix (hs : List Bytes) : ∀ (ms : List Bytes) (b rest : Bytes), (∀ m ∈ hs, m.length ≤ 8192) →
    (∀ m ∈ ms, m.length ≤ 8192) → Incomplete b ∨ (∃ n, announced b = some n) → frames hs ++ b ++ rest = frames ms →
    ∃ tl, ms = hs ++ tl ∧ b ++ rest = frames tl := by
  induction hs with
  | nil => intro ms b rest _ _ _ h; exact ⟨ms, rfl, by simpa [frames] using h⟩
  | cons x hs ih =>
    intro ms b rest h1 h2 h3 h
    cases ms with
    | nil => simp [frames, frame, be32] at h
    | cons m ms =>
      have hx := h1 x List.mem_cons_self
      have hm := h2 m List.mem_cons_self
      rw [frames, List.flatMap_cons, List.append_assoc, List.append_assoc, frames, List.flatMap_cons] at h
      obtain ⟨e1, e2⟩ := frame_inj (by omega) (by omega) h
      rw [← List.append_assoc] at e2
      obtain ⟨tl, e3, e4⟩ := ih ms b rest (fun y hy => h1 y (List.mem_cons_of_mem _ hy))
        (fun y hy => h2 y (List.mem_cons_of_mem _ hy)) h3 e2
      exact ⟨tl, by rw [e1, e3]; rfl, e4⟩

/-- **C61** (partial): as long as no timeout strikes in the middle of a message, the process handles exactly the messages
it was sent, in order, for every segmentation and timing: it never rejects one of them, and when all bytes have been
read all have been handled (unless the peer connection ended). Missing: timeouts during a message
(`timeout_loses_message`). -/
theorem messages_handled_partial (T : Nat) (hd : Bytes → Bool) (es : List Ev) (hu : undisturbed T hd (init T) es)
    (ms : List Bytes) (hms : ∀ m ∈ ms, m.length ≤ 8192 ∧ hd m = true) (rest : Bytes)
    (hr : (run T hd (init T) es).read ++ rest = frames ms) :
    (run T hd (init T) es).ended ≠ some .bad ∧ (∃ tl, ms = (run T hd (init T) es).handled ++ tl) ∧
    (rest = [] → (run T hd (init T) es).handled = ms) := by
  have h := minv_run es (minv_init T hd) hu
  generalize run T hd (init T) es = s at *
  have key : ∀ (hb : Incomplete s.buf ∨ ∃ n, announced s.buf = some n),
      ∃ tl, ms = s.handled ++ tl ∧ s.buf ++ rest = frames tl := fun hb =>
    handled_prefix s.handled ms s.buf rest h.ok (fun m hm => (hms m hm).1) hb (by rw [← h.read]; exact hr)
  have hnb : s.ended ≠ some .bad := by
    intro hbad
    rcases h.bad hbad with ⟨n, hn, hbig⟩ | ⟨m, hm, hv, hml⟩
    · obtain ⟨tl, e1, e2⟩ := key (Or.inr ⟨n, hn⟩)
      cases tl with
      | nil => simp [frames] at e2; rw [e2.1] at hn; cases hn
      | cons x tl =>
        have hx := (hms x (by rw [e1]; simp)).1
        have h1 := announced_append hn rest
        rw [e2, frames, List.flatMap_cons, announced_of_frame (by omega)] at h1
        cases h1; omega
    · obtain ⟨tl, e1, e2⟩ := key (Or.inr ⟨m.length, by
        have := announced_of_frame (m := m) (by omega) []
        rw [List.append_nil] at this; rw [hm]; exact this⟩)
      cases tl with
      | nil => simp [frames] at e2; rw [e2.1] at hm; simp [frame, be32] at hm
      | cons x tl =>
        have hx := hms x (by rw [e1]; simp)
        rw [hm, frames, List.flatMap_cons] at e2
        obtain ⟨e3, _⟩ := frame_inj (by omega) (by omega) e2
        rw [e3, hx.2] at hv; cases hv
  obtain ⟨tl, e1, e2⟩ := key (Or.inl (h.inc hnb))
  refine ⟨hnb, ⟨tl, e1⟩, fun hr0 => ?_⟩
  subst hr0
  cases tl with
  | nil => rw [e1, List.append_nil]
  | cons x tl =>
    exfalso
    have hx := (hms x (by rw [e1]; simp)).1
    rw [List.append_nil, frames, List.flatMap_cons] at e2
    have ha := announced_of_frame (m := x) (by omega) (tl.flatMap frame)
    have hi := (h.inc hnb) x.length (by rw [e2]; exact ha)
    rw [e2] at hi
    simp [frame] at hi
    omega

/-- **C61 is false**: while a channel is open, a timeout between the length and the body of a message drops the length
that was read; the body is then taken for the beginning of a message. Here the message `00 00 00 01 07 08` is lost and
a message `07` nobody sent is handled. -/
theorem timeout_loses_message :
    let es := [Ev.open_, .byte 0, .byte 0, .byte 0, .byte 6, .wait 5, .fire,
      .byte 0, .byte 0, .byte 0, .byte 1, .byte 7, .byte 8]
    (run 5 (fun _ => true) (init 5) es).read = frames [[0, 0, 0, 1, 7, 8]] ∧
    (run 5 (fun _ => true) (init 5) es).handled = [[7]] := by decide

/-- Non-vacuity: two messages, cut and delayed, a timeout between them. -/
example :
    let es := [Ev.open_, .byte 0, .byte 0, .byte 0, .wait 3, .byte 1, .byte 9, .wait 5, .fire, .byte 0, .byte 0, .byte 0,
      .wait 4, .byte 2, .byte 4, .byte 5]
    undisturbed 5 (fun _ => true) (init 5) es ∧ (run 5 (fun _ => true) (init 5) es).handled = [[9], [4, 5]] := by
  refine ⟨?_, by decide⟩
  simp only [undisturbed]
  decide

end Verif.P2P.PeerLoop
