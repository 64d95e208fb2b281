import Verif.Common
/-!
# C39: keep-alive of a client tunnel (libcs/client/conn.go:138-147, 169-290)

One event is one iteration of the client's read loop; what the frames contain is C10/C48, here only the
counters matter.
-/
set_option linter.unusedSimpArgs false
set_option linter.unusedVariables false
namespace Verif.Client.Ping

/-- One iteration of the loop. -/
inductive Ev where
  /-- `Peek(4)` timed out; `sent`: the ping could be sent (`IsTimeout`, libcs/client/conn.go:138-147) -/
  | timeout (sent : Bool)
  /-- any other read error -/
  | readErr
  /-- a ping signal (the server's reply); `noTasks`: no open task; `parked`: `ChangeToWait` agrees -/
  | ping (noTasks parked : Bool)
  /-- a close signal -/
  | close (noTasks : Bool)
  /-- ready, services or info signal handled successfully -/
  | signal
  /-- error signal or unreadable info signal: the loop returns -/
  | fatal
  /-- a task frame; `ok`: it was handled and the loop goes on -/
  | frame (ok : Bool)
deriving DecidableEq, Repr

inductive End where
  /-- the loop condition `pings <= 3` failed: the server is considered dead -/
  | dead
  /-- every other return -/
  | other
deriving DecidableEq, Repr

/-- libcs/client/conn.go:169-172. -/
structure St where
  pings : Int
  lastPing : Nat
  isClosing : Bool
deriving DecidableEq, Repr

def St.init : St := ⟨0, 0, false⟩

/-- Result of an iteration. `.inr` continues; the Bool tells whether a close signal was sent (the
connection is being parked, libcs/client/conn.go:229-235). -/
def iter (s : St) : Ev → Sum End (St × Bool)
  | .timeout sent => if sent then .inr ({ s with pings := s.pings + 1 }, false) else .inl .other
  | .readErr => .inl .other
  | .ping noTasks parked =>
    let s := { s with pings := s.pings - 1, lastPing := s.lastPing + 1 }
    if s.isClosing && decide (s.lastPing ≥ 3) && noTasks then .inl .other
    else if s.lastPing ≥ 6 then .inr ({ s with lastPing := 0 }, parked)
    else .inr (s, false)
  | .close noTasks => if s.isClosing || noTasks then .inl .other else .inr ({ s with isClosing := true }, false)
  | .signal => .inr (s, false)
  | .fatal => .inl .other
  | .frame ok => if ok then .inr ({ s with lastPing := 0 }, false) else .inl .other

/-- Outcome of the loop on a finite history: still running (all events consumed) or ended after `n` events. -/
inductive Res where
  | running (s : St)
  | ended (e : End) (n : Nat)
deriving DecidableEq, Repr

/-- libcs/client/conn.go:189-372: `for pings <= 3 { ... }`. `n` counts consumed events. -/
def run (s : St) (n : Nat) : List Ev → Res
  | [] => if s.pings ≤ 3 then .running s else .ended .dead n
  | e :: r =>
    if s.pings ≤ 3 then
      match iter s e with
      | .inl x => .ended x (n + 1)
      | .inr (s', _) => run s' (n + 1) r
    else .ended .dead n

/-! ## Specification -/

def isTimeout : Ev → Bool
  | .timeout _ => true
  | _ => false
def isPing : Ev → Bool
  | .ping _ _ => true
  | _ => false

/-- Pings sent minus replies received. -/
def outstanding (h : List Ev) : Int := (h.countP isTimeout : Int) - (h.countP isPing : Int)

theorem outstanding_append (a b : List Ev) : outstanding (a ++ b) = outstanding a + outstanding b := by
  simp only [outstanding, List.countP_append]; omega

theorem iter_pings {s s' : St} {e : Ev} {b : Bool} (h : iter s e = .inr (s', b)) :
    s'.pings = s.pings + outstanding [e] := by
  cases e with
  | timeout sent =>
    cases sent <;> simp [iter] at h
    rw [← h.1]; simp [outstanding, isTimeout, isPing]
  | readErr => simp [iter] at h
  | ping nt pk =>
    simp only [iter] at h
    split at h
    · simp at h
    · split at h <;> (simp at h; rw [← h.1]; simp [outstanding, isTimeout, isPing]; omega)
  | close nt =>
    simp only [iter] at h
    split at h
    · simp at h
    · simp at h; rw [← h.1]; simp [outstanding, isTimeout, isPing]
  | signal => simp [iter] at h; rw [← h.1]; simp [outstanding, isTimeout, isPing]
  | fatal => simp [iter] at h
  | frame ok =>
    cases ok <;> simp [iter] at h
    rw [← h.1]; simp [outstanding, isTimeout, isPing]

theorem iter_end {s : St} {e : Ev} {x : End} (h : iter s e = .inl x) : x = .other := by
  cases e with
  | timeout sent => cases sent <;> simp [iter] at h; exact h.symm
  | readErr => simp [iter] at h; exact h.symm
  | ping nt pk =>
    simp only [iter] at h
    split at h
    · simp at h; exact h.symm
    · split at h <;> simp at h
  | close nt =>
    simp only [iter] at h
    split at h
    · simp at h; exact h.symm
    · simp at h
  | signal => simp [iter] at h
  | fatal => simp [iter] at h; exact h.symm
  | frame ok => cases ok <;> simp [iter] at h; exact h.symm

/-- Everything there is to know about the counter. -/
theorem run_spec (evs : List Ev) (s : St) (n : Nat) :
    (∃ s', run s n evs = .running s' ∧ s'.pings = s.pings + outstanding evs ∧
      ∀ k, k ≤ evs.length → s.pings + outstanding (evs.take k) ≤ 3) ∨
    (∃ k, k ≤ evs.length ∧ run s n evs = .ended .dead (n + k) ∧ 3 < s.pings + outstanding (evs.take k) ∧
      ∀ j, j < k → s.pings + outstanding (evs.take j) ≤ 3) ∨
    (∃ k, 0 < k ∧ k ≤ evs.length ∧ run s n evs = .ended .other (n + k) ∧
      ∀ j, j < k → s.pings + outstanding (evs.take j) ≤ 3) := by
  induction evs generalizing s n with
  | nil =>
    by_cases h : s.pings ≤ 3
    · refine Or.inl ⟨s, by simp [run, h], by simp [outstanding], ?_⟩
      intro k _; simp [outstanding]; exact h
    · refine Or.inr (Or.inl ⟨0, by simp, by simp [run, h], by simp [outstanding]; omega, by intro j hj; omega⟩)
  | cons e evs ih =>
    by_cases h : s.pings ≤ 3
    · simp only [run, if_pos h]
      cases hi : iter s e with
      | inl x =>
        have := iter_end hi; subst this
        refine Or.inr (Or.inr ⟨1, by omega, by simp, rfl, ?_⟩)
        intro j hj
        have : j = 0 := by omega
        subst this; simpa [outstanding] using h
      | inr p =>
        obtain ⟨s', b⟩ := p
        have hp := iter_pings hi
        have hcons : ∀ k, outstanding ((e :: evs).take (k + 1)) = outstanding [e] + outstanding (evs.take k) := by
          intro k
          rw [List.take_succ_cons, ← outstanding_append]; rfl
        rcases ih s' (n + 1) with ⟨s2, a, b', c⟩ | ⟨k, a, b', c, d⟩ | ⟨k, a0, a, b', d⟩
        · refine Or.inl ⟨s2, a, ?_, ?_⟩
          · rw [b', hp, show e :: evs = [e] ++ evs from rfl, outstanding_append]; omega
          · intro k hk
            cases k with
            | zero => simpa [outstanding] using h
            | succ k => rw [hcons]; have := c k (by simp at hk; omega); omega
        · refine Or.inr (Or.inl ⟨k + 1, by simp; omega, by simp only; rw [b']; congr 1; omega, by rw [hcons]; omega, ?_⟩)
          intro j hj
          cases j with
          | zero => simpa [outstanding] using h
          | succ j => rw [hcons]; have := d j (by omega); omega
        · refine Or.inr (Or.inr ⟨k + 1, by omega, by simp; omega, by simp only; rw [b']; congr 1; omega, ?_⟩)
          intro j hj
          cases j with
          | zero => simpa [outstanding] using h
          | succ j => rw [hcons]; have := d j (by omega); omega
    · refine Or.inr (Or.inl ⟨0, by simp, by simp [run, h], by simp [outstanding]; omega, by intro j hj; omega⟩)

/-! ## C39 -/

/-- C39 (alive): the server is declared dead only when four more pings were sent than answered; a server
that keeps the number of unanswered pings below four is never declared dead, whatever else happens. -/
theorem responsive_server_never_dead (h : List Ev) (hr : ∀ k, k ≤ h.length → outstanding (h.take k) ≤ 3) (n : Nat) :
    run .init 0 h ≠ .ended .dead n := by
  rcases run_spec h .init 0 with ⟨s', a, _⟩ | ⟨k, a, b, c, _⟩ | ⟨k, _, a, b, _⟩
  · rw [a]; simp
  · have := hr k a; simp [St.init] at c; omega
  · rw [b]; simp

/-- In particular a server that answers each ping before the next timeout is never declared dead. -/
theorem prompt_server_never_dead (h : List Ev) (hr : ∀ k, k ≤ h.length → outstanding (h.take k) ≤ 1) (n : Nat) :
    run .init 0 h ≠ .ended .dead n :=
  responsive_server_never_dead h (fun k hk => by have := hr k hk; omega) n

/-- C39 (dead): if the server never sent more replies than pings it got (so far), then after at most four
further read timeouts without a reply the loop has ended, whatever else is received meanwhile. -/
theorem silent_server_detected (h t : List Ev) (hon : 0 ≤ outstanding h)
    (hno : ∀ e ∈ t, isPing e = false) (h4 : 4 ≤ t.countP isTimeout) :
    ∃ e n, run .init 0 (h ++ t) = .ended e n := by
  rcases run_spec (h ++ t) .init 0 with ⟨s', a, b, c⟩ | ⟨k, _, b, _⟩ | ⟨k, _, _, b, _⟩
  · exfalso
    have := c (h ++ t).length (Nat.le_refl _)
    rw [List.take_length, outstanding_append] at this
    have h0 : t.countP isPing = 0 := by
      rw [List.countP_eq_zero]; intro e he; simp [hno e he]
    simp only [St.init] at this
    have : outstanding t = (t.countP isTimeout : Int) := by simp [outstanding, h0]
    omega
  · exact ⟨_, _, b⟩
  · exact ⟨_, _, b⟩

/-- The bound is exact: three timeouts do not end the loop, the fourth does. -/
example : run .init 0 (List.replicate 3 (.timeout true)) = .running ⟨3, 0, false⟩ ∧
    run .init 0 (List.replicate 4 (.timeout true)) = .ended .dead 4 := by decide

/-- Without the honesty hypothesis detection is not bounded: a server that sends `n` unsolicited pings
first survives `n + 3` silent timeouts (the counter goes below zero). -/
theorem unsolicited_pings_postpone_detection (n : Nat) :
    ∃ s, run .init 0 (List.replicate n (.ping false false) ++ List.replicate (n + 3) (.timeout true)) = .running s := by
  have h2 : ∀ (m : Nat) (s : St) (k : Nat), s.pings + (m : Int) ≤ 3 → ∃ s', run s k (List.replicate m (.timeout true)) = .running s' := by
    intro m
    induction m with
    | zero => intro s k h; exact ⟨s, by simp [run]; omega⟩
    | succ m ih =>
      intro s k h
      rw [List.replicate_succ]
      simp only [run, iter, if_true]
      rw [if_pos (by omega)]
      exact ih _ _ (by simp only; omega)
  have h1 : ∀ (n : Nat) (s : St) (k : Nat) (t : List Ev), s.isClosing = false → s.pings ≤ 0 →
      ∃ s' k', run s k (List.replicate n (.ping false false) ++ t) = run s' k' t ∧ s'.pings = s.pings - n := by
    intro n
    induction n with
    | zero => intro s k t _ _; exact ⟨s, k, by simp, by omega⟩
    | succ n ih =>
      intro s k t hc hp
      rw [List.replicate_succ, List.cons_append]
      have hi : ∃ s' b, iter s (.ping false false) = .inr (s', b) ∧ s'.isClosing = false ∧ s'.pings = s.pings - 1 := by
        simp only [iter, hc, Bool.false_and, Bool.false_eq_true, if_false]
        by_cases h6 : s.lastPing + 1 ≥ 6
        · rw [if_pos h6]; exact ⟨_, _, rfl, rfl, rfl⟩
        · rw [if_neg h6]; exact ⟨_, _, rfl, rfl, rfl⟩
      obtain ⟨s', b, hi, hc', hp'⟩ := hi
      simp only [run, hi]
      rw [if_pos (by omega)]
      obtain ⟨s2, k2, e, hp2⟩ := ih s' (k + 1) t hc' (by omega)
      exact ⟨s2, k2, e, by omega⟩
  obtain ⟨s', k', e, hp⟩ := h1 n .init 0 (List.replicate (n + 3) (.timeout true)) rfl (by simp [St.init])
  obtain ⟨s2, e2⟩ := h2 (n + 3) s' k' (by simp [St.init] at hp; omega)
  exact ⟨s2, by rw [e, e2]⟩

/-- Finding: data traffic does not reset the count. Unanswered pings accumulate over the whole life of the
tunnel: a server that sends data frames after every timeout but has missed four replies is dropped. -/
theorem traffic_does_not_reset :
    run .init 0 ((List.replicate 4 [Ev.timeout true, .frame true, .frame true]).flatten) = .ended .dead 10 := by decide

/-! ## Parking -/

/-- The close signals the loop sends to park an idle connection, as positions in the history. -/
def parks (s : St) : List Ev → List Bool
  | [] => []
  | e :: r =>
    if s.pings ≤ 3 then
      match iter s e with
      | .inl _ => []
      | .inr (s', b) => b :: parks s' r
    else []

/-- Replies since the last task frame (as a suffix count). -/
def quietReplies : List Ev → Nat
  | [] => 0
  | .frame _ :: _ => 0
  | .ping _ _ :: r => quietReplies r + 1
  | _ :: r => quietReplies r

/-- A connection is parked only after at least six ping replies with no task frame in between (that is,
after an idle time of six read timeouts if every ping is answered). -/
theorem parked_only_when_quiet (h : List Ev) (i : Nat) (hp : (parks .init h)[i]? = some true) :
    6 ≤ quietReplies (h.take (i + 1)).reverse := by
  have key : ∀ (evs : List Ev) (s : St) (pre : List Ev) (i : Nat), s.lastPing ≤ quietReplies pre.reverse →
      (parks s evs)[i]? = some true → 6 ≤ quietReplies (pre ++ evs.take (i + 1)).reverse := by
    intro evs
    induction evs with
    | nil => intro s pre i _ h; simp [parks] at h
    | cons e evs ih =>
      intro s pre i hl h
      unfold parks at h
      split at h
      · cases hi : iter s e with
        | inl x => rw [hi] at h; simp at h
        | inr p =>
          obtain ⟨s', b⟩ := p
          rw [hi] at h
          have hl' : s'.lastPing ≤ quietReplies (pre ++ [e]).reverse ∧ (b = true → 6 ≤ quietReplies (pre ++ [e]).reverse) := by
            rw [List.reverse_append, List.reverse_singleton, List.singleton_append]
            cases e with
            | timeout sent => cases sent <;> simp [iter] at hi; obtain ⟨rfl, rfl⟩ := hi; simpa [quietReplies] using hl
            | readErr => simp [iter] at hi
            | ping nt pk =>
              simp only [iter] at hi
              split at hi
              · simp at hi
              · split at hi
                · rename_i h6
                  simp at hi; obtain ⟨rfl, rfl⟩ := hi
                  simp only [quietReplies] at h6 ⊢
                  exact ⟨Nat.zero_le _, fun _ => by simp at h6; omega⟩
                · simp at hi; obtain ⟨rfl, rfl⟩ := hi
                  simp only [quietReplies]; exact ⟨by omega, by simp⟩
            | close nt =>
              simp only [iter] at hi
              split at hi
              · simp at hi
              · simp at hi; obtain ⟨rfl, rfl⟩ := hi; simpa [quietReplies] using hl
            | signal => simp [iter] at hi; obtain ⟨rfl, rfl⟩ := hi; simpa [quietReplies] using hl
            | fatal => simp [iter] at hi
            | frame ok => cases ok <;> simp [iter] at hi; obtain ⟨rfl, rfl⟩ := hi; simp [quietReplies]
          cases i with
          | zero => simp at h; simpa using hl'.2 h
          | succ i =>
            simp only [List.getElem?_cons_succ] at h
            have := ih s' (pre ++ [e]) i hl'.1 h
            simpa using this
      · simp at h
  have := key h .init [] i (by simp [St.init]) hp
  simpa using this

/-- Non-vacuity: six answered pings park the connection at the sixth. -/
example : parks .init ((List.replicate 6 [Ev.timeout true, .ping true true]).flatten) =
    [false, false, false, false, false, false, false, false, false, false, false, true] := by decide

/-- The events at which the loop may return other than by declaring the server dead. -/
def Ends (before : List Ev) : Ev → Prop
  | .timeout sent => sent = false
  | .readErr => True
  | .fatal => True
  | .frame ok => ok = false
  | .signal => False
  | .close noTasks => noTasks = true ∨ ∃ b, Ev.close b ∈ before
  | .ping noTasks p => noTasks = true ∧ (∃ b, Ev.close b ∈ before) ∧ 3 ≤ quietReplies (before ++ [Ev.ping noTasks p]).reverse

/-- C39 (graceful close): for every history, if the loop returned other than by declaring the server dead, it did so at
a failed ping, a read error, a fatal signal, a frame that could not be handled, a close signal while no task was open or
after an earlier close signal, or a ping reply after an earlier close signal, with no open task and after at least three
replies without a task frame. So open tasks are never cut by a close signal alone. -/
theorem loop_ends_only (h : List Ev) (n : Nat) (he : run .init 0 h = .ended .other n) :
    ∃ before e after, h = before ++ e :: after ∧ n = before.length + 1 ∧ Ends before e := by
  have key : ∀ (evs : List Ev) (s : St) (pre : List Ev), s.lastPing ≤ quietReplies pre.reverse →
      (s.isClosing = true → ∃ b, Ev.close b ∈ pre) → run s pre.length evs = .ended .other n →
      ∃ before e after, pre ++ evs = before ++ e :: after ∧ n = before.length + 1 ∧ Ends before e := by
    intro evs
    induction evs with
    | nil =>
      intro s pre _ _ h
      unfold run at h
      split at h <;> simp at h
    | cons e evs ih =>
      intro s pre hl hc h
      unfold run at h
      split at h
      · cases hi : iter s e with
        | inl x =>
          rw [hi] at h
          simp only [Res.ended.injEq] at h
          refine ⟨pre, e, evs, rfl, h.2.symm, ?_⟩
          cases e with
          | timeout sent => cases sent <;> simp [iter] at hi; rfl
          | readErr => trivial
          | ping nt pk =>
            simp only [iter] at hi
            split at hi
            · rename_i hx
              simp only [Bool.and_eq_true, decide_eq_true_eq] at hx
              refine ⟨hx.2, hc hx.1.1, ?_⟩
              rw [List.reverse_append, List.reverse_singleton, List.singleton_append]
              simp only [quietReplies]
              have := hx.1.2
              omega
            · split at hi <;> simp at hi
          | close nt =>
            simp only [iter] at hi
            split at hi
            · rename_i hx
              simp only [Bool.or_eq_true] at hx
              rcases hx with hx | hx
              · exact Or.inr (hc hx)
              · exact Or.inl hx
            · simp at hi
          | signal => simp [iter] at hi
          | fatal => trivial
          | frame ok => cases ok <;> simp [iter] at hi; rfl
        | inr p =>
          obtain ⟨s', b⟩ := p
          rw [hi] at h
          dsimp only at h
          have hlen : (pre ++ [e]).length = pre.length + 1 := by simp
          have hx : s'.lastPing ≤ quietReplies (pre ++ [e]).reverse ∧ (s'.isClosing = true → ∃ b, Ev.close b ∈ pre ++ [e]) := by
            rw [List.reverse_append, List.reverse_singleton, List.singleton_append]
            have up : s.isClosing = true → ∃ b, Ev.close b ∈ pre ++ [e] := fun hx => by
              obtain ⟨b, hb⟩ := hc hx
              exact ⟨b, by simp [hb]⟩
            cases e with
            | timeout sent =>
              cases sent <;> simp [iter] at hi
              obtain ⟨rfl, rfl⟩ := hi; exact ⟨by simpa [quietReplies] using hl, up⟩
            | readErr => simp [iter] at hi
            | ping nt pk =>
              simp only [iter] at hi
              split at hi
              · simp at hi
              · split at hi
                · simp at hi; obtain ⟨rfl, rfl⟩ := hi; exact ⟨Nat.zero_le _, up⟩
                · simp at hi; obtain ⟨rfl, rfl⟩ := hi
                  simp only [quietReplies]; exact ⟨by omega, up⟩
            | close nt =>
              simp only [iter] at hi
              split at hi
              · simp at hi
              · simp at hi; obtain ⟨rfl, rfl⟩ := hi
                exact ⟨by simpa [quietReplies] using hl, fun _ => ⟨nt, by simp⟩⟩
            | signal => simp [iter] at hi; obtain ⟨rfl, rfl⟩ := hi; exact ⟨by simpa [quietReplies] using hl, up⟩
            | fatal => simp [iter] at hi
            | frame ok =>
              cases ok <;> simp [iter] at hi
              obtain ⟨rfl, rfl⟩ := hi; exact ⟨by simp [quietReplies], up⟩
          obtain ⟨bf, e', af, h1, h2, h3⟩ := ih s' (pre ++ [e]) hx.1 hx.2 (by rw [hlen]; exact h)
          exact ⟨bf, e', af, by rw [← h1]; simp, h2, h3⟩
      · simp at h
  exact key h .init [] (by simp [St.init]) (by simp [St.init]) he

/-- Close with an open task, two timeouts and replies, the task ends, one more reply: the loop ends there. -/
example : run .init 0 [.close false, .timeout true, .ping false false, .timeout true, .ping false false,
    .timeout true, .ping true false, .signal] = .ended .other 7 ∧
    (∃ s, run .init 0 [.close false, .timeout true, .ping false false, .timeout true, .ping false false,
      .timeout true, .ping false false, .signal] = .running s) := ⟨by decide, _, rfl⟩

/-! ### A tunnel whose end was announced does end -/

theorem run_append_ended {s : St} {n : Nat} {a : List Ev} {x : End} {m : Nat} (h : run s n a = .ended x m) (b : List Ev) :
    ∃ y k, run s n (a ++ b) = .ended y k := by
  induction a generalizing s n with
  | nil =>
    unfold run at h
    split at h
    · simp at h
    · rename_i hp
      cases b with
      | nil => exact ⟨.dead, n, by simp [run, hp]⟩
      | cons e b => exact ⟨.dead, n, by simp [run, hp]⟩
  | cons e a ih =>
    simp only [List.cons_append, run] at h ⊢
    split at h
    · rename_i hp
      rw [if_pos hp]
      cases hi : iter s e with
      | inl x => exact ⟨_, _, rfl⟩
      | inr p => rw [hi] at h; exact ih h
    · rename_i hp
      rw [if_neg hp]; exact ⟨_, _, rfl⟩

theorem run_append_running {s s' : St} {n : Nat} {a : List Ev} (h : run s n a = .running s') (b : List Ev) :
    run s n (a ++ b) = run s' (n + a.length) b := by
  induction a generalizing s n with
  | nil =>
    unfold run at h
    split at h
    · simp at h; subst h; rfl
    · simp at h
  | cons e a ih =>
    simp only [List.cons_append, run] at h ⊢
    split at h
    · rename_i hp
      rw [if_pos hp]
      cases hi : iter s e with
      | inl x => rw [hi] at h; simp at h
      | inr p =>
        rw [hi] at h
        dsimp only at h ⊢
        rw [ih h, List.length_cons]
        congr 1; omega
    · simp at h

theorem iter_closing {s s' : St} {e : Ev} {b : Bool} (h : iter s e = .inr (s', b)) :
    (s.isClosing = true → s'.isClosing = true) ∧ ((∃ x, e = .close x) → s'.isClosing = true) := by
  cases e with
  | timeout sent => cases sent <;> simp [iter] at h; obtain ⟨rfl, _⟩ := h; simp
  | readErr => simp [iter] at h
  | ping nt pk =>
    simp only [iter] at h
    split at h
    · simp at h
    · split at h <;> (simp at h; obtain ⟨rfl, _⟩ := h; simp)
  | close nt =>
    simp only [iter] at h
    split at h
    · simp at h
    · simp at h; obtain ⟨rfl, _⟩ := h; simp
  | signal => simp [iter] at h; obtain ⟨rfl, _⟩ := h; simp
  | fatal => simp [iter] at h
  | frame ok => cases ok <;> simp [iter] at h; obtain ⟨rfl, _⟩ := h; simp

theorem run_closing {s s' : St} {n : Nat} {a : List Ev} (h : run s n a = .running s')
    (hc : s.isClosing = true ∨ ∃ x, Ev.close x ∈ a) : s'.isClosing = true := by
  induction a generalizing s n with
  | nil =>
    unfold run at h
    split at h
    · simp at h; subst h; simpa using hc
    · simp at h
  | cons e a ih =>
    simp only [run] at h
    split at h
    · cases hi : iter s e with
      | inl x => rw [hi] at h; simp at h
      | inr p =>
        obtain ⟨s1, b⟩ := p
        rw [hi] at h
        have hk := iter_closing hi
        refine ih h ?_
        rcases hc with hc | ⟨x, hc⟩
        · exact .inl (hk.1 hc)
        · rcases List.mem_cons.mp hc with rfl | hc
          · exact .inl (hk.2 ⟨x, rfl⟩)
          · exact .inr ⟨x, hc⟩
    · simp at h

/-- C39 (graceful close, the other half): once the server has announced the end of the tunnel, three ping replies while no task is open
and no task frame arrives end it, at the latest. -/
theorem closing_tunnel_ends (h t : List Ev) (x : Bool) (hc : Ev.close x ∈ h)
    (ht : ∀ e ∈ t, (∃ p, e = .ping true p) ∨ e = .timeout true ∨ e = .signal) (h3 : 3 ≤ t.countP isPing) :
    ∃ e n, run .init 0 (h ++ t) = .ended e n := by
  cases hr : run .init 0 h with
  | ended y m => exact run_append_ended hr t
  | running s =>
    rw [run_append_running hr t]
    have hcl := run_closing hr (.inr ⟨x, hc⟩)
    have key : ∀ (t : List Ev) (s : St) (n : Nat), s.isClosing = true →
        (∀ e ∈ t, (∃ p, e = .ping true p) ∨ e = .timeout true ∨ e = .signal) → 3 ≤ s.lastPing + t.countP isPing →
        t.countP isPing ≠ 0 → ∃ e n', run s n t = .ended e n' := by
      intro t
      induction t with
      | nil => intro s n _ _ _ h0; simp at h0
      | cons e t ih =>
        intro s n hcl ht h3 h0
        unfold run
        by_cases hp : s.pings ≤ 3
        · rw [if_pos hp]
          have htl := fun e he => ht e (List.mem_cons_of_mem _ he)
          rcases ht e List.mem_cons_self with ⟨p, rfl⟩ | rfl | rfl
          · by_cases hl : 3 ≤ s.lastPing + 1
            · simp only [iter, hcl, Bool.true_and, Bool.and_true]
              rw [if_pos (by simpa using hl)]
              exact ⟨_, _, rfl⟩
            · have h6 : ¬ (s.lastPing + 1 ≥ 6) := by omega
              simp only [iter, hcl, Bool.true_and, Bool.and_true]
              rw [if_neg (by simpa using hl), if_neg h6]
              have hcp : (Ev.ping true p :: t).countP isPing = t.countP isPing + 1 := List.countP_cons_of_pos rfl
              refine ih _ _ rfl htl ?_ ?_
              · dsimp only; omega
              · omega
          · simp only [iter, if_true]
            exact ih _ _ hcl htl (by simpa [isPing] using h3) (by simpa [isPing] using h0)
          · simp only [iter]
            exact ih _ _ hcl htl (by simpa [isPing] using h3) (by simpa [isPing] using h0)
        · rw [if_neg hp]; exact ⟨_, _, rfl⟩
    exact key t s _ hcl ht (by omega) (by omega)

/-- The bound is exact: two replies do not end it, and three do not while a task is open. -/
example : (∃ s, run .init 0 [.frame true, .close false, .ping true false, .ping true false] = .running s) ∧
    run .init 0 [.frame true, .close false, .ping true false, .ping true false, .ping true false] = .ended .other 5 ∧
    (∃ s, run .init 0 [.frame true, .close false, .ping false false, .ping false false, .ping false false] = .running s) :=
  ⟨⟨_, rfl⟩, rfl, _, rfl⟩

/-- Quiet times do lead to parking: after a task frame (or at the beginning) the sixth reply that comes without a task frame asks for it, if the
pool has an idle connection to spare (`true` in that reply), and no earlier one does. -/
theorem parked_at_the_sixth (s : St) (nt : Nat → Bool) (p : Nat → Bool) (h0 : s.lastPing = 0) (hc : s.isClosing = false) (hp : s.pings ≤ 0) :
    parks s ((List.range 6).flatMap (fun i => [Ev.timeout true, .ping (nt i) (p i)])) =
      [false, false, false, false, false, false, false, false, false, false, false, p 5] := by
  obtain ⟨pg, lp, cl⟩ := s
  simp only at h0 hc hp
  subst h0 hc
  have e : ∀ x : Int, x + 1 - 1 = x := by intro x; omega
  have l1 : pg ≤ 3 := by omega
  have l2 : pg + 1 ≤ 3 := by omega
  simp [List.range, List.range.loop, parks, iter, l1, l2, e]

example : (St.mk 0 0 false).lastPing = 0 ∧ (St.mk 0 0 false).pings ≤ 0 := by decide

end Verif.Client.Ping
