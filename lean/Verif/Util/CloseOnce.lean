import Verif.Common
/-!
# C45: closing a connection (libcs/conn/conn.go:60-97)

`Connection.Close`, `CloseByRemote` and `CloseWithValue`; the same compare-and-swap pattern guards
`httpTask.CloseWithValue` (libcs/client/task.go:229-238), the client tunnel's `Close`
(libcs/client/conn.go:150-159) and the peer tasks' `Close` (libcs/client/peer.go:152-186), whose guarded
section closes a Go channel (closing it twice would panic).
-/
set_option linter.unusedSimpArgs false
set_option linter.unusedVariables false
namespace Verif.Util.CloseOnce

/-- libcs/conn/conn.go:60-65. -/
def closeLocal : Nat := 1
def closeByRemote : Nat := 2

inductive PC where
  | idle
  /-- the compare-and-swap succeeded, `CloseOnce` not yet run -/
  | won
deriving DecidableEq, Repr

structure St where
  /-- `c.Closing` -/
  closing : Nat
  /-- how often the transport's `Close` was called -/
  closes : Nat
  pc : Nat → PC

def St.new : St := ⟨0, 0, fun _ => .idle⟩

inductive Ev where
  /-- goroutine `t` called `CloseWithValue(v)` (its compare-and-swap) -/
  | call (t v : Nat)
  /-- the transport was closed -/
  | transportClosed
  | ret (t : Nat)
  /-- `IsClosing()`, `IsClosingByRemote()` -/
  | isClosing (t : Nat) (a b : Bool)
deriving DecidableEq, Repr

def setPc (s : St) (t : Nat) (p : PC) : Nat → PC := fun u => if u = t then p else s.pc u

/-- One atomic step. -/
inductive Step : St → List Ev → St → Prop where
  /-- libcs/conn/conn.go:80-81: `CompareAndSwap(0, value)` succeeds. Every caller passes `Close` or `CloseByRemote`. -/
  | casWin (s : St) (t v : Nat) (h : s.pc t = .idle) (hv : v = closeLocal ∨ v = closeByRemote) (h0 : s.closing = 0) :
      Step s [.call t v] { s with closing := v, pc := setPc s t .won }
  | casLose (s : St) (t v : Nat) (h : s.pc t = .idle) (hv : v = closeLocal ∨ v = closeByRemote) (h0 : s.closing ≠ 0) :
      Step s [.call t v, .ret t] s
  /-- libcs/conn/conn.go:85-88 `CloseOnce` -/
  | close (s : St) (t : Nat) (h : s.pc t = .won) :
      Step s [.transportClosed, .ret t] { s with closes := s.closes + 1, pc := setPc s t .idle }
  /-- libcs/conn/conn.go:90-98 -/
  | query (s : St) (t : Nat) (h : s.pc t = .idle) :
      Step s [.isClosing t (decide (s.closing > 0)) (decide (s.closing = closeByRemote))] s

inductive Reach : List Ev → St → Prop where
  | new : Reach [] .new
  | step (tr evs : List Ev) (s s' : St) (h : Reach tr s) (hs : Step s evs s') : Reach (tr ++ evs) s'

/-! ## Specification -/

/-- The reason of the first close call in a trace. -/
def firstReason : List Ev → Option Nat
  | [] => none
  | .call _ v :: _ => some v
  | _ :: r => firstReason r

theorem firstReason_append (a b : List Ev) : firstReason (a ++ b) = (firstReason a).orElse (fun _ => firstReason b) := by
  induction a with
  | nil => simp [firstReason]
  | cons e a ih => cases e <;> simp [firstReason, ih]

def countClosed (tr : List Ev) : Nat := tr.count .transportClosed

structure Inv (tr : List Ev) (s : St) : Prop where
  hcount : s.closes = countClosed tr
  h0 : s.closing = 0 → s.closes = 0 ∧ ∀ t, s.pc t = .idle
  h1 : s.closing ≠ 0 → (s.closes = 1 ∧ ∀ t, s.pc t = .idle) ∨
        (s.closes = 0 ∧ ∃ t, s.pc t = .won ∧ ∀ u, u ≠ t → s.pc u = .idle)
  hr : firstReason tr = if s.closing = 0 then none else some s.closing

theorem Reach.inv {tr : List Ev} {s : St} (h : Reach tr s) : Inv tr s := by
  induction h with
  | new => exact ⟨rfl, by simp [St.new], by simp [St.new], by simp [St.new, firstReason]⟩
  | step tr evs s s' _ hs ih =>
    cases hs with
    | casWin t v h hv h0 =>
      have hv0 : v ≠ 0 := by rcases hv with rfl | rfl <;> simp [closeLocal, closeByRemote]
      obtain ⟨a, b⟩ := ih.h0 h0
      refine ⟨by simpa [countClosed, List.count_append] using ih.hcount, fun e => absurd e hv0, fun _ => Or.inr ⟨a, t, by simp [setPc], ?_⟩, ?_⟩
      · intro u hu; simp [setPc, hu, b u]
      · simp only [firstReason_append, ih.hr, h0, if_true, firstReason, if_neg hv0]; rfl
    | casLose t v h hv h0 =>
      refine ⟨by simpa [countClosed, List.count_append] using ih.hcount, ih.h0, ih.h1, ?_⟩
      simp only [firstReason_append, ih.hr, if_neg h0]; rfl
    | close t h =>
      have hc : s.closing ≠ 0 := by intro e; have := (ih.h0 e).2 t; rw [h] at this; simp at this
      have hone : s.closes = 0 ∧ ∀ u, u ≠ t → s.pc u = .idle := by
        rcases ih.h1 hc with ⟨_, b⟩ | ⟨a, u, hu, b⟩
        · have := b t; rw [h] at this; simp at this
        · have : t = u := by
            by_cases e : t = u
            · exact e
            · have := b t e; rw [h] at this; simp at this
          subst this; exact ⟨a, b⟩
      refine ⟨?_, fun e => absurd e hc, fun _ => Or.inl ⟨by simp [hone.1], ?_⟩, ?_⟩
      · have := ih.hcount
        simp [countClosed, List.count_append] at this ⊢
        omega
      · intro u
        by_cases e : u = t
        · simp [setPc, e]
        · simp [setPc, e, hone.2 u e]
      · simp only [firstReason_append, ih.hr, if_neg hc]; rfl
    | query t h =>
      refine ⟨by simpa [countClosed, List.count_append] using ih.hcount, ih.h0, ih.h1, ?_⟩
      rw [firstReason_append, ih.hr]
      by_cases e : s.closing = 0 <;> simp [e, firstReason]

/-! ## C45 -/

/-- C45: however many goroutines close the connection, the transport is closed at most once; and once some
close call was made and all calls have returned, exactly once. -/
theorem transport_closed_once {tr : List Ev} {s : St} (h : Reach tr s) :
    countClosed tr ≤ 1 ∧ ((∃ t v, Ev.call t v ∈ tr) → (∀ t, s.pc t = .idle) → countClosed tr = 1) := by
  have hi := h.inv
  constructor
  · rw [← hi.hcount]
    by_cases e : s.closing = 0
    · have := (hi.h0 e).1; omega
    · rcases hi.h1 e with ⟨a, _⟩ | ⟨a, _⟩ <;> omega
  · intro ⟨t, v, hm⟩ hid
    have hf : firstReason tr ≠ none := by
      intro hn
      have key : ∀ tr : List Ev, Ev.call t v ∈ tr → firstReason tr ≠ none := by
        intro tr
        induction tr with
        | nil => simp
        | cons e tr ih => intro hm; cases e <;> simp [firstReason] at hm ⊢ <;> exact ih hm
      exact key tr hm hn
    have e : s.closing ≠ 0 := by intro e; rw [hi.hr, if_pos e] at hf; exact hf rfl
    rw [← hi.hcount]
    rcases hi.h1 e with ⟨a, _⟩ | ⟨_, u, hu, _⟩
    · exact a
    · rw [hid u] at hu; simp at hu

/-- C45 (origin): what `IsClosing` and `IsClosingByRemote` report is decided by the first close call: the
recorded reason is never overwritten. -/
theorem reason_is_the_first {pre post : List Ev} {t : Nat} {a b : Bool} {s : St}
    (h : Reach (pre ++ .isClosing t a b :: post) s) :
    (a = true ↔ ∃ t v, Ev.call t v ∈ pre) ∧ (b = true ↔ firstReason pre = some closeByRemote) := by
  have hmem : ∀ pre : List Ev, (∃ t v, Ev.call t v ∈ pre) ↔ firstReason pre ≠ none := by
    intro pre
    induction pre with
    | nil => simp [firstReason]
    | cons e pre ih =>
      cases e with
      | call t v => simp [firstReason]; exact ⟨t, v, Or.inl ⟨rfl, rfl⟩⟩
      | _ => simpa [firstReason] using ih
  generalize htr : pre ++ .isClosing t a b :: post = tr at h
  induction h generalizing post with
  | new => simp at htr
  | step tr evs s s' hr hs ih =>
    by_cases hl : pre.length < tr.length
    · have h1 : ∃ post', pre ++ .isClosing t a b :: post' = tr := by
        have : tr = (pre ++ .isClosing t a b :: post).take tr.length := by rw [htr]; simp
        rw [List.take_append, List.take_of_length_le (by omega)] at this
        obtain ⟨k, hk⟩ : ∃ k, tr.length - pre.length = k + 1 := ⟨tr.length - pre.length - 1, by omega⟩
        rw [hk, List.take_succ_cons] at this
        exact ⟨_, this.symm⟩
      obtain ⟨post', hp⟩ := h1
      exact ih hp
    · have hi := hr.inv
      -- the event is among the new ones
      obtain ⟨k, hk⟩ : ∃ k, pre.length = tr.length + k := ⟨pre.length - tr.length, by omega⟩
      have hpre : pre = tr ++ evs.take k ∧ evs.drop k = .isClosing t a b :: post := by
        have h1 : (pre ++ .isClosing t a b :: post).take pre.length = (tr ++ evs).take pre.length := by rw [htr]
        have h2 : (pre ++ .isClosing t a b :: post).drop pre.length = (tr ++ evs).drop pre.length := by rw [htr]
        simp only [List.take_left', List.drop_left'] at h1 h2
        refine ⟨?_, ?_⟩
        · rw [h1, hk, List.take_append, List.take_of_length_le (by omega)]; congr 2; omega
        · rw [h2, hk, List.drop_append, List.drop_eq_nil_of_le (as := tr) (by omega)]
          rw [List.nil_append]; congr 1; omega
      obtain ⟨hp1, hp2⟩ := hpre
      cases hs with
      | query t' h =>
        match k, hp2 with
        | 0, hp2 =>
          simp only [List.drop_zero, List.cons.injEq, Ev.isClosing.injEq] at hp2
          obtain ⟨⟨rfl, rfl, rfl⟩, rfl⟩ := hp2
          simp only [List.take_zero, List.append_nil] at hp1
          subst hp1
          rw [hmem, hi.hr]
          by_cases e : s.closing = 0
          · simp [e, closeByRemote]
          · simp [e]; omega
        | k + 1, hp2 => simp at hp2
      | casWin t' v h hv h0 =>
        match k, hp2 with
        | 0, hp2 => simp at hp2
        | k + 1, hp2 => simp at hp2
      | casLose t' v h hv h0 =>
        match k, hp2 with
        | 0, hp2 => simp at hp2
        | 1, hp2 => simp at hp2
        | k + 2, hp2 => simp at hp2
      | close t' h =>
        match k, hp2 with
        | 0, hp2 => simp at hp2
        | 1, hp2 => simp at hp2
        | k + 2, hp2 => simp at hp2

/-- Non-vacuity: the remote closes first while a local close is tried concurrently. -/
theorem demo_run : ∃ s, Reach [.call 1 closeByRemote, .call 2 closeLocal, .ret 2, .transportClosed, .ret 1,
    .isClosing 3 true true] s ∧ ∀ t, s.pc t = .idle := by
  have r1 := Reach.step _ _ _ _ .new (.casWin _ 1 closeByRemote rfl (Or.inr rfl) rfl)
  have r2 := Reach.step _ _ _ _ r1 (.casLose _ 2 closeLocal rfl (Or.inl rfl) (by decide))
  have r3 := Reach.step _ _ _ _ r2 (.close _ 1 rfl)
  have r4 := Reach.step _ _ _ _ r3 (.query _ 3 rfl)
  refine ⟨_, r4, ?_⟩
  intro t
  by_cases h : t = 1 <;> simp [setPc, h, St.new]

/-- The two origins are told apart: a connection closed first by its own side is never reported as closed by the remote. -/
theorem local_close_is_not_remote {pre post : List Ev} {t u : Nat} {a b : Bool} {s : St}
    (h : Reach (.call u closeLocal :: pre ++ .isClosing t a b :: post) s) : a = true ∧ b = false := by
  have := reason_is_the_first (pre := .call u closeLocal :: pre) h
  refine ⟨this.1.mpr ⟨u, closeLocal, by simp⟩, ?_⟩
  cases hb : b with
  | false => rfl
  | true =>
    have h2 := this.2.mp hb
    simp [firstReason, closeLocal, closeByRemote] at h2

theorem remote_close_is_remote {pre post : List Ev} {t u : Nat} {a b : Bool} {s : St}
    (h : Reach (.call u closeByRemote :: pre ++ .isClosing t a b :: post) s) : a = true ∧ b = true := by
  have := reason_is_the_first (pre := .call u closeByRemote :: pre) h
  exact ⟨this.1.mpr ⟨u, closeByRemote, by simp⟩, this.2.mpr (by simp [firstReason])⟩

end Verif.Util.CloseOnce
