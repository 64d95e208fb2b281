import Verif.Common
set_option linter.unusedSimpArgs false
set_option linter.unusedVariables false
/-!
# C62: the idle timer of a P2P session in thread mode (libcs/client/peer.go:519-547, 561-600; libcs/client/conn.go:595-603)

Each data channel has a goroutine `OnOpen`. The shared state is the counter of channels and one timer, which closes the
session when it expires. Every access is one step; any number of channels, any interleaving.
-/
namespace Verif.P2P.ThreadIdle

inductive PC where
  /-- not opened yet -/
  | fresh
  /-- counted, the timer not yet stopped -/
  | counted
  /-- carrying data -/
  | up
  /-- counted out; the counter was this -/
  | leaving (count : Nat)
  | gone
deriving DecidableEq, Repr

structure St where
  count : Nat
  /-- the timer is running -/
  armed : Bool
  closed : Bool
  pc : Nat → PC
  /-- ghost: the channels that are `up` -/
  live : List Nat

/-- The timer runs from the creation of the session (libcs/client/conn.go:600-603). -/
def init : St := ⟨0, true, false, fun _ => .fresh, []⟩

def upd (f : Nat → PC) (c : Nat) (p : PC) : Nat → PC := fun x => if x = c then p else f x

/-- The next step of channel `c` (libcs/client/peer.go:526-547). -/
def step (s : St) (c : Nat) : St :=
  if s.closed then s
  else match s.pc c with
  | .fresh => { s with count := s.count + 1, pc := upd s.pc c .counted }
  | .counted => { s with armed := false, pc := upd s.pc c .up, live := c :: s.live }
  | .up => { s with count := s.count - 1, pc := upd s.pc c (.leaving (s.count - 1)), live := s.live.filter (· ≠ c) }
  | .leaving n => { s with armed := if n = 0 then true else s.armed, pc := upd s.pc c .gone }
  | .gone => s

/-- The timer expires: `CloseWithLock`. -/
def expire (s : St) : St := if s.armed ∧ s.closed = false then { s with armed := false, closed := true } else s

inductive Ev where
  | chan (c : Nat)
  | expire
deriving DecidableEq, Repr

def next (s : St) : Ev → St
  | .chan c => step s c
  | .expire => expire s

def run (s : St) : List Ev → St
  | [] => s
  | e :: es => run (next s e) es

/-- **C62 is false**: channel 1 ends, and between counting itself out and starting the timer channel 2 opens; the timer
then runs while channel 2 carries data, and closes the session under it. -/
theorem idle_timer_cuts_open_channel :
    let s := run init [.chan 1, .chan 1, .chan 1, .chan 2, .chan 2, .chan 1, .expire]
    s.closed = true ∧ s.live = [2] := by decide

/-- Operations that are not overlapped by others. -/
inductive Op where
  | open_ (c : Nat)
  | close (c : Nat)
  | expire
deriving DecidableEq, Repr

def apply (s : St) : Op → St
  | .open_ c => if s.pc c = .fresh then step (step s c) c else s
  | .close c => if s.pc c = .up then step (step s c) c else s
  | .expire => expire s

def applyAll (s : St) : List Op → St
  | [] => s
  | o :: os => applyAll (apply s o) os

structure Inv (s : St) : Prop where
  cnt : s.count = s.live.length
  nodup : s.live.Nodup
  mem : ∀ c, c ∈ s.live ↔ s.pc c = .up
  arm : s.armed = true → s.live = []
  cut : s.closed = true → s.live = []

theorem filter_ne_length {l : List Nat} (h : l.Nodup) {c : Nat} (hc : c ∈ l) : (l.filter (· ≠ c)).length + 1 = l.length := by
  induction l with
  | nil => cases hc
  | cons a l ih =>
    obtain ⟨h1, h2⟩ := List.nodup_cons.mp h
    by_cases e : a = c
    · subst e
      have : l.filter (· ≠ a) = l := by
        rw [List.filter_eq_self]; intro x hx; simp; intro e; exact h1 (e ▸ hx)
      rw [List.filter_cons, if_neg (by simp), this, List.length_cons]
    · have hc' : c ∈ l := (List.mem_cons.mp hc).resolve_left (fun x => e x.symm)
      rw [List.filter_cons, if_pos (by simp [e]), List.length_cons, List.length_cons, ih h2 hc']

theorem inv_apply {s : St} (h : Inv s) (o : Op) : Inv (apply s o) := by
  cases o with
  | open_ c =>
    simp only [apply]
    split
    · rename_i hf
      by_cases hcl : s.closed = true
      · simp only [step, hcl, if_true]; exact h
      · have hcl : s.closed = false := by simpa using hcl
        have hnm : c ∉ s.live := fun hm => by rw [(h.mem c).mp hm] at hf; cases hf
        simp only [step, hcl, hf, upd, if_true, Bool.false_eq_true, if_false]
        refine ⟨?_, ?_, ?_, (fun x => by cases x), (fun x => by simp only [hcl] at x; cases x)⟩
        · simp [h.cnt]
        · exact List.nodup_cons.mpr ⟨hnm, h.nodup⟩
        · intro x
          by_cases e : x = c
          · subst e; simp [upd]
          · simp [upd, e, h.mem x]
    · exact h
  | close c =>
    simp only [apply]
    split
    · rename_i hu
      by_cases hcl : s.closed = true
      · simp only [step, hcl, if_true]; exact h
      · have hcl : s.closed = false := by simpa using hcl
        have hm : c ∈ s.live := (h.mem c).mpr hu
        have hlen := filter_ne_length h.nodup hm
        have hcnt := h.cnt
        simp only [step, hcl, hu, upd, if_true, Bool.false_eq_true, if_false]
        refine ⟨?_, h.nodup.sublist List.filter_sublist, ?_, ?_, (fun x => by simp only [hcl] at x; cases x)⟩
        · dsimp only; omega
        · intro x
          by_cases e : x = c
          · subst e; simp [upd]
          · simp [upd, e, h.mem x]
        · intro ha
          dsimp only at ha ⊢
          split at ha
          · rename_i h0
            exact List.length_eq_zero_iff.mp (by omega)
          · have := h.arm ha
            rw [this] at hm; cases hm
    · exact h
  | expire =>
    simp only [apply, expire]
    split
    · rename_i hx
      exact ⟨h.cnt, h.nodup, h.mem, (fun x => by cases x), fun _ => h.arm hx.1⟩
    · exact h

theorem inv_all (os : List Op) : ∀ {s : St}, Inv s → Inv (applyAll s os) := by
  induction os with
  | nil => intro s h; exact h
  | cons o os ih => intro s h; exact ih (inv_apply h o)

/-- **C62** (partial): if openings and closings of channels do not overlap, the idle timer never closes a session with an
open channel. Missing: overlapping ones (`idle_timer_cuts_open_channel`). -/
theorem no_open_channel_cut_partial (os : List Op) (h : (applyAll init os).closed = true) : (applyAll init os).live = [] :=
  (inv_all os (s := init) ⟨rfl, by simp [init], by simp [init], by simp [init], by simp [init]⟩).cut h

/-- Non-vacuity: the timer does close an idle session, and not one with a channel. -/
example : (applyAll init [.open_ 1, .open_ 2, .close 1, .expire]).closed = false ∧
    (applyAll init [.open_ 1, .open_ 2, .close 1, .close 2, .expire]).closed = true := by decide

/-- A session in which no channel was ever opened is closed by the timer. -/
theorem unused_session_closed : (apply init .expire).closed = true := rfl

/-- So is one whose channels were all closed. -/
theorem left_session_closed (c : Nat) : (applyAll init [.open_ c, .close c, .expire]).closed = true := by
  simp [applyAll, apply, step, init, upd, expire]

end Verif.P2P.ThreadIdle
