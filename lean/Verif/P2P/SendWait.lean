import Verif.Common
set_option linter.unusedSimpArgs false
set_option linter.unusedVariables false
/-!
# C100: flow control of a P2P data channel (libcs/client/webrtc/datachannel.go:104-162)

One goroutine sends on a channel (libcs/client/peer.go:567-591, libcs/client/tcpforward.go:115-131). The library buffers up to `cap` bytes. When
there is no room the goroutine sleeps on a condition variable; the library's callback, which runs on a thread of its own, signals it.
The callback does not take the mutex of the condition variable. Every access to shared state is one step, and the steps interleave in
any way.

The library is represented by its contract: the buffered amount shrinks in portions, and after each portion the callback runs once; a
channel that was closed drops what is buffered and runs no further callbacks.
-/
namespace Verif.P2P.SendWait

/-- Where the sending goroutine is; the number is the size of the message. -/
inductive PC where
  | idle
  /-- in `SendOnce`, before the look at the room (datachannel.go:117) -/
  | look (m : Nat)
  /-- no room seen; about to announce that it waits (118-121) -/
  | flag (m : Nat)
  /-- announced, not yet on the list of the condition variable (122) -/
  | announced (m : Nat)
  /-- asleep in `Wait` (122) -/
  | asleep (m : Nat)
  /-- woken; about to look again (127) -/
  | again (m : Nat)
  /-- about to hand the message to the library (134) -/
  | hand (m : Nat)
  /-- `Send` returned false: the goroutine ends -/
  | failed
deriving DecidableEq, Repr

structure St where
  cap : Nat
  /-- bytes buffered by the library -/
  buf : Nat
  waiting : Bool
  pc : PC
  /-- callbacks that the library still has to run -/
  calls : Nat
  /-- callbacks that have seen `waiting` and are about to signal -/
  sig : Nat
  isOpen : Bool
  /-- ghost: sizes of the messages handed over, in order -/
  sent : List Nat
deriving DecidableEq, Repr

def init (cap : Nat) : St := ⟨cap, 0, false, .idle, 0, 0, true, []⟩

inductive Ev where
  /-- the goroutine has read a message of `m` bytes and calls `Send` -/
  | send (m : Nat)
  /-- the goroutine's next step -/
  | go
  /-- the library sends `k` buffered bytes -/
  | drain (k : Nat)
  /-- a callback looks at `waiting` (datachannel.go:110) -/
  | call
  /-- a callback signals (datachannel.go:111) -/
  | signal
  /-- the channel is closed by the visitor, or the session breaks -/
  | close
deriving DecidableEq, Repr

/-- datachannel.go:115-137 `SendOnce`, one step. (Simplification of `Send`, 139-154: a message that the library refuses although the
channel is open and there is room does not occur.) -/
def go (s : St) : St :=
  match s.pc with
  | .idle => s
  | .look m => if m > s.cap - s.buf then { s with pc := .flag m } else { s with pc := .hand m }
  | .flag m => { s with waiting := true, pc := .announced m }
  | .announced m => { s with pc := .asleep m }
  | .asleep _ => s
  | .again m => if m ≤ s.cap - s.buf then { s with waiting := false, pc := .hand m } else { s with pc := .flag m }
  | .hand m => if s.isOpen then { s with buf := s.buf + m, sent := s.sent ++ [m], pc := .idle } else { s with pc := .failed }
  | .failed => s

/-- `Signal` (datachannel.go:111): wakes a goroutine that is on the list, and is forgotten otherwise. -/
def wake : PC → PC
  | .asleep m => .again m
  | p => p

def next (s : St) : Ev → St
  | .send m => if s.pc = .idle then { s with pc := .look m } else s
  | .go => go s
  | .drain k => if 0 < k ∧ k ≤ s.buf ∧ s.isOpen then { s with buf := s.buf - k, calls := s.calls + 1 } else s
  | .call => if 0 < s.calls then { s with calls := s.calls - 1, sig := if s.waiting then s.sig + 1 else s.sig } else s
  | .signal => if 0 < s.sig then { s with sig := s.sig - 1, pc := wake s.pc } else s
  | .close => if s.isOpen then { s with isOpen := false, buf := 0 } else s

def run (s : St) : List Ev → St
  | [] => s
  | e :: es => run (next s e) es

theorem run_append (s : St) (a b : List Ev) : run s (a ++ b) = run (run s a) b := by
  induction a generalizing s with
  | nil => rfl
  | cons e a ih => exact ih _

/-! ## Specification -/

/-- The sizes of the messages the goroutine has begun to send, in order. -/
def offered : St → List Ev → List Nat
  | _, [] => []
  | s, .send m :: es => if s.pc = .idle then m :: offered (next s (.send m)) es else offered (next s (.send m)) es
  | s, e :: es => offered (next s e) es

/-- The message being sent. -/
def PC.msg : PC → List Nat
  | .look m | .flag m | .announced m | .asleep m | .again m | .hand m => [m]
  | _ => []

def PC.ended : PC → Bool
  | .failed => true
  | _ => false

/-- The goroutine sleeps, whatever happens from now on. -/
def Stuck (s : St) : Prop := ∀ es : List Ev, ∃ m, (run s es).pc = .asleep m

/-! ## What holds -/

/-- The invariant: the buffer is never overfull, and a goroutine about to sleep has announced it. -/
structure Inv (s : St) : Prop where
  room : s.buf ≤ s.cap
  hand : ∀ m, s.pc = .hand m → m ≤ s.cap - s.buf
  ann : ∀ m, s.pc = .announced m ∨ s.pc = .asleep m ∨ s.pc = .again m → s.waiting = true

theorem inv_init (cap : Nat) : Inv (init cap) := ⟨by simp [init], by simp [init], by simp [init]⟩

theorem inv_next (s : St) (e : Ev) (h : Inv s) : Inv (next s e) := by
  obtain ⟨cap, buf, w, pc, calls, sig, o, sent⟩ := s
  obtain ⟨h1, h2, h3⟩ := h
  simp only at h1 h2 h3
  cases e with
  | send m =>
    simp only [next]
    split
    · exact ⟨h1, by simp, by simp⟩
    · exact ⟨h1, h2, h3⟩
  | go =>
    cases pc with
    | idle => exact ⟨h1, h2, h3⟩
    | look m =>
      simp only [next, go]
      split
      · exact ⟨h1, by simp, by simp⟩
      · exact ⟨h1, by simp; omega, by simp⟩
    | flag m => exact ⟨h1, by simp [next, go], by simp [next, go]⟩
    | announced m => exact ⟨h1, by simp [next, go], by simpa [next, go] using h3 m⟩
    | asleep m => exact ⟨h1, h2, h3⟩
    | again m =>
      simp only [next, go]
      split
      · exact ⟨h1, by simp; omega, by simp⟩
      · exact ⟨h1, by simp, by simp⟩
    | hand m =>
      have := h2 m rfl
      simp only [next, go]
      split
      · exact ⟨by simp only; omega, by simp, by simp⟩
      · exact ⟨h1, by simp, by simp⟩
    | failed => exact ⟨h1, h2, h3⟩
  | drain k =>
    simp only [next]
    split
    · exact ⟨by simp only; omega, fun m hm => by have := h2 m hm; simp only; omega, h3⟩
    · exact ⟨h1, h2, h3⟩
  | call =>
    simp only [next]
    split
    · exact ⟨h1, h2, h3⟩
    · exact ⟨h1, h2, h3⟩
  | signal =>
    simp only [next]
    split
    · refine ⟨h1, ?_, ?_⟩
      · intro m hm
        apply h2 m
        simp only at hm
        cases pc <;> simp [wake] at hm ⊢ <;> exact hm
      · intro m hm
        simp only at hm ⊢
        cases pc with
        | asleep k => exact h3 k (Or.inr (Or.inl rfl))
        | announced k => exact h3 k (Or.inl rfl)
        | again k => exact h3 k (Or.inr (Or.inr rfl))
        | idle => simp [wake] at hm
        | look k => simp [wake] at hm
        | flag k => simp [wake] at hm
        | hand k => simp [wake] at hm
        | failed => simp [wake] at hm
    · exact ⟨h1, h2, h3⟩
  | close =>
    simp only [next]
    split
    · exact ⟨by simp, fun m hm => by have := h2 m hm; simp only; omega, h3⟩
    · exact ⟨h1, h2, h3⟩

theorem inv_run (s : St) (h : Inv s) (es : List Ev) : Inv (run s es) := by
  induction es generalizing s with
  | nil => exact h
  | cons e es ih => exact ih _ (inv_next s e h)

/-- **The library's buffer is never overfilled**, for every interleaving. -/
theorem never_overfull (cap : Nat) (es : List Ev) : (run (init cap) es).buf ≤ (run (init cap) es).cap :=
  (inv_run _ (inv_init cap) es).room

theorem cap_run (s : St) (es : List Ev) : (run s es).cap = s.cap := by
  induction es generalizing s with
  | nil => rfl
  | cons e es ih =>
    rw [run, ih]
    cases e with
    | go => simp only [next, go]; split <;> (try split) <;> rfl
    | send m => simp only [next]; split <;> rfl
    | drain k => simp only [next]; split <;> rfl
    | call => simp only [next]; split <;> rfl
    | signal => simp only [next]; split <;> rfl
    | close => simp only [next]; split <;> rfl

theorem failed_stays : ∀ (es : List Ev) (s : St), s.pc = .failed → (run s es).pc = .failed := by
  intro es
  induction es with
  | nil => intro s h; exact h
  | cons e es ih =>
    intro s h
    apply ih
    cases e with
    | go => simp only [next, go, h]
    | send m => simp [next, h]
    | drain k => simp only [next]; split <;> exact h
    | call => simp only [next]; split <;> exact h
    | signal => simp only [next]; split <;> simp [h, wake]
    | close => simp only [next]; split <;> exact h

/-- **Messages are handed over in order, each at most once, none skipped**: what was handed over and what is being sent is what was
offered, unless the channel was closed (then the last message failed). -/
theorem in_order_from (s : St) (es : List Ev) :
    (run s es).pc ≠ .failed → (run s es).sent ++ (run s es).pc.msg = s.sent ++ s.pc.msg ++ offered s es := by
  induction es generalizing s with
  | nil => intro _; simp [run, offered]
  | cons e es ih =>
    intro hne
    have := ih (next s e) hne
    rw [run, this]
    have hf : s.pc ≠ .failed := by
      intro hx
      apply hne
      exact failed_stays (e :: es) s hx
    have hnf : (next s e).pc ≠ .failed := by
      intro hx
      apply hne
      exact failed_stays es _ hx
    cases e with
    | send m =>
      simp only [offered, next]
      split
      · rename_i h; simp [h, PC.msg]
      · rfl
    | go =>
      simp only [offered]
      congr 1
      simp only [next, go] at hnf ⊢
      split <;> rename_i hpc <;> simp only [hpc, PC.msg] at hnf ⊢
      · split <;> rfl
      · split <;> rfl
      · split
        · simp
        · rename_i ho; rw [if_neg ho] at hnf; simp at hnf
    | drain k => simp only [offered, next]; split <;> rfl
    | call => simp only [offered, next]; split <;> rfl
    | signal =>
      simp only [offered, next]
      split
      · congr 2
        cases s.pc <;> rfl
      · rfl
    | close => simp only [offered, next]; split <;> rfl

/-- C100. Missing from the claim: that a waiting sender always goes on, which is false (`wakeup_lost_before_announcement`, `wakeup_lost_before_sleep`, `close_while_waiting`). -/
theorem in_order_partial (cap : Nat) (es : List Ev) (h : (run (init cap) es).pc ≠ .failed) :
    (run (init cap) es).sent ++ (run (init cap) es).pc.msg = offered (init cap) es := by
  have := in_order_from (init cap) es h
  simpa [init, PC.msg] using this

/-- **A message that finds room is handed over without waiting**, in two steps. -/
theorem fits_no_wait (s : St) (m : Nat) (h : s.pc = .look m) (hm : m ≤ s.cap - s.buf) (ho : s.isOpen = true) :
    (run s [.go, .go]).pc = .idle ∧ (run s [.go, .go]).sent = s.sent ++ [m] := by
  simp only [run, next]
  have e1 : go s = { s with pc := .hand m } := by
    simp only [go, h]; rw [if_neg (by omega)]
  rw [e1]
  simp [go, ho]

/-- **A callback that begins after the goroutine fell asleep wakes it**, and if there is room it goes on. -/
theorem later_callback_wakes (cap : Nat) (es : List Ev) (m : Nat) (h : (run (init cap) es).pc = .asleep m)
    (hc : 0 < (run (init cap) es).calls) :
    (run (init cap) (es ++ [.call, .signal])).pc = .again m := by
  rw [run_append]
  have hi := inv_run _ (inv_init cap) es
  generalize run (init cap) es = s at h hc hi ⊢
  have hw := hi.ann m (Or.inr (Or.inl h))
  simp only [run, next, if_pos hc, hw]
  simp [wake, h]

/-- Any portion sent while the goroutine sleeps brings such a callback. -/
theorem drain_wakes (cap : Nat) (es : List Ev) (m k : Nat) (h : (run (init cap) es).pc = .asleep m) (hk : 0 < k)
    (hb : k ≤ (run (init cap) es).buf) (ho : (run (init cap) es).isOpen = true) :
    (run (init cap) (es ++ [.drain k, .call, .signal])).pc = .again m := by
  have h1 : (run (init cap) (es ++ [.drain k])).pc = .asleep m ∧ 0 < (run (init cap) (es ++ [.drain k])).calls := by
    rw [run_append]
    simp only [run, next, if_pos (⟨hk, hb, ho⟩ : 0 < k ∧ k ≤ (run (init cap) es).buf ∧ _)]
    exact ⟨h, by omega⟩
  have := later_callback_wakes cap (es ++ [.drain k]) m h1.1 h1.2
  simpa using this

/-- After a wake-up with room the message is handed over. -/
theorem again_hands (s : St) (m : Nat) (h : s.pc = .again m) (hm : m ≤ s.cap - s.buf) (ho : s.isOpen = true) :
    (run s [.go, .go]).pc = .idle ∧ (run s [.go, .go]).sent = s.sent ++ [m] := by
  simp only [run, next]
  have e1 : go s = { s with waiting := false, pc := .hand m } := by
    simp only [go, h]; rw [if_pos hm]
  rw [e1]
  simp [go, ho]

/-! ## When the wake-up is lost -/

/-- Asleep, and nothing under way that could wake. -/
def Dead (s : St) : Prop := (∃ m, s.pc = .asleep m) ∧ s.buf = 0 ∧ s.calls = 0 ∧ s.sig = 0

theorem dead_next (s : St) (e : Ev) (h : Dead s) : Dead (next s e) := by
  obtain ⟨⟨m, h1⟩, h2, h3, h4⟩ := h
  cases e with
  | send k => simp only [next]; rw [if_neg (by simp [h1])]; exact ⟨⟨m, h1⟩, h2, h3, h4⟩
  | go => simp only [next, go, h1]; exact ⟨⟨m, h1⟩, h2, h3, h4⟩
  | drain k => simp only [next]; rw [if_neg (by omega)]; exact ⟨⟨m, h1⟩, h2, h3, h4⟩
  | call => simp only [next]; rw [if_neg (by omega)]; exact ⟨⟨m, h1⟩, h2, h3, h4⟩
  | signal => simp only [next]; rw [if_neg (by omega)]; exact ⟨⟨m, h1⟩, h2, h3, h4⟩
  | close =>
    simp only [next]
    split
    · exact ⟨⟨m, h1⟩, rfl, h3, h4⟩
    · exact ⟨⟨m, h1⟩, h2, h3, h4⟩

theorem dead_stuck (s : St) (h : Dead s) : Stuck s := by
  intro es
  induction es generalizing s with
  | nil => exact h.1
  | cons e es ih => exact ih _ (dead_next s e h)

theorem closed_empty (cap : Nat) (es : List Ev) : (run (init cap) es).isOpen = false → (run (init cap) es).buf = 0 := by
  have : ∀ (es : List Ev) (s : St), (s.isOpen = false → s.buf = 0) → (run s es).isOpen = false → (run s es).buf = 0 := by
    intro es
    induction es with
    | nil => intro s h; exact h
    | cons e es ih =>
      intro s h
      apply ih
      cases e with
      | send m => simp only [next]; split <;> exact h
      | go =>
        simp only [next, go]
        split
        · exact h
        · split <;> exact h
        · exact h
        · exact h
        · exact h
        · split <;> exact h
        · split
          · rename_i ho; intro hx; simp [ho] at hx
          · exact h
        · exact h
      | drain k => simp only [next]; split <;> simp_all
      | call => simp only [next]; split <;> exact h
      | signal => simp only [next]; split <;> exact h
      | close => simp only [next]; split <;> simp_all
  exact this es (init cap) (by simp [init])

/-- **The goroutine sleeps for ever exactly if it sleeps, nothing is buffered, and no callback is under way.** -/
theorem stuck_iff (cap : Nat) (es : List Ev) : Stuck (run (init cap) es) ↔
    (∃ m, (run (init cap) es).pc = .asleep m) ∧ (run (init cap) es).buf = 0 ∧ (run (init cap) es).calls = 0 ∧
      (run (init cap) es).sig = 0 := by
  refine ⟨fun h => ?_, fun h => dead_stuck _ h⟩
  have h0 := h []
  obtain ⟨m, h0⟩ := h0
  have h0 : (run (init cap) es).pc = .asleep m := h0
  have hs0 : (run (init cap) es).sig = 0 := by
    by_cases hs : 0 < (run (init cap) es).sig
    · obtain ⟨k, hk⟩ := h [.signal]
      simp only [run, next, if_pos hs, h0, wake] at hk
      cases hk
    · omega
  have hc0 : (run (init cap) es).calls = 0 := by
    by_cases hc : 0 < (run (init cap) es).calls
    · have := later_callback_wakes cap es m h0 hc
      obtain ⟨k, hk⟩ := h [.call, .signal]
      rw [← run_append, this] at hk
      cases hk
    · omega
  refine ⟨⟨m, h0⟩, ?_, hc0, hs0⟩
  cases ho : (run (init cap) es).isOpen with
  | false => exact closed_empty cap es ho
  | true =>
    by_cases hb : 0 < (run (init cap) es).buf
    · have := drain_wakes cap es m _ h0 hb (Nat.le_refl _) ho
      obtain ⟨k, hk⟩ := h [.drain (run (init cap) es).buf, .call, .signal]
      rw [← run_append, this] at hk
      cases hk
    · omega

/-- **C100 is false**: the buffer is full; between the goroutine's look and its announcement the library sends everything and runs its
callback, which sees nobody waiting. The goroutine then sleeps for ever, with an open channel and an empty buffer: the transfer stands
still, whatever happens. -/
theorem wakeup_lost_before_announcement (cap : Nat) (h : 0 < cap) :
    ∃ es, (run (init cap) es).isOpen = true ∧ (run (init cap) es).buf = 0 ∧ Stuck (run (init cap) es) := by
  refine ⟨[.send cap, .go, .go, .send 1, .go, .drain cap, .call, .go, .go], ?_, ?_, dead_stuck _ ⟨⟨1, ?_⟩, ?_, ?_, ?_⟩⟩ <;>
    simp [run, next, go, init, h]

/-- **C100 is false**: the same if the callback signals after the announcement but before the goroutine is on the list. -/
theorem wakeup_lost_before_sleep (cap : Nat) (h : 0 < cap) :
    ∃ es, (run (init cap) es).isOpen = true ∧ (run (init cap) es).buf = 0 ∧ Stuck (run (init cap) es) := by
  refine ⟨[.send cap, .go, .go, .send 1, .go, .go, .drain cap, .call, .signal, .go], ?_, ?_, dead_stuck _ ⟨⟨1, ?_⟩, ?_, ?_, ?_⟩⟩ <;>
    simp [run, next, go, init, h, wake]

/-- **C100 is false: a channel closed while the goroutine waits for room keeps it asleep for ever** - whenever no callback is under
way, from every state: the goroutine and the connection to the service are never released, and the channel stays counted. -/
theorem close_while_waiting (s : St) (m : Nat) (h : s.pc = .asleep m) (hc : s.calls = 0) (hs : s.sig = 0) (ho : s.isOpen = true) :
    Stuck (next s .close) := by
  apply dead_stuck
  simp only [next, if_pos ho]
  exact ⟨⟨m, h⟩, rfl, hc, hs⟩

/-- Such a state is reached whenever the visitor reads more slowly than the service sends. -/
theorem close_while_waiting_reachable (cap : Nat) (h : 0 < cap) : ∃ es m, (run (init cap) es).pc = .asleep m ∧
    (run (init cap) es).calls = 0 ∧ (run (init cap) es).sig = 0 ∧ (run (init cap) es).isOpen = true := by
  refine ⟨[.send cap, .go, .go, .send 1, .go, .go, .go], 1, ?_⟩
  simp [run, next, go, init, h]

/-- **A goroutine that does not wait when the channel is closed ends at its next message.** -/
theorem close_ends_sender (s : St) (m : Nat) (h : s.pc = .look m) (hm : m ≤ s.cap) (ho : s.isOpen = true) :
    (run s [.close, .go, .go]).pc = .failed := by
  simp only [run, next, if_pos ho]
  have e1 : go { s with isOpen := false, buf := 0 } = { s with isOpen := false, buf := 0, pc := .hand m } := by
    simp only [go, h]; rw [if_neg (by omega)]
  rw [e1]
  simp [go]

/-! ### Witnesses -/

example : (run (init 10) [.send 10, .go, .go, .send 4, .go, .go, .go, .drain 5, .call, .signal, .go, .go]).sent = [10, 4] := by decide
example : (run (init 10) [.send 10, .go, .go, .send 4, .go, .go, .go]).pc = .asleep 4 := by decide

end Verif.P2P.SendWait
