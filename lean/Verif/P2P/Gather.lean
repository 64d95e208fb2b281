import Verif.Common
set_option linter.unusedSimpArgs false
set_option linter.unusedVariables false
/-!
# C118: setting up a P2P connection (thread mode)
(libcs/client/peer.go:107-122 `OnICEGatheringChange`, `OnICECandidate`; 152-186 `Close`, `CloseWithLock`; 340-413 `response`,
`processOffer`; 415-472 `getOffer`; libcs/client/conn.go:594; libcs/client/webrtc/peerconnection.go:457-547)

The client answers a visitor with its description and then with the addresses ("candidates") that the library finds, one
after the other, in a channel of 16 places; an empty text ends the list. The library finds candidates as soon as the local
description is set, and reports each by a callback on its signalling thread. The calls of the library
(`GetLocalDescription`, `Close`) are carried out on the same thread and wait for it.

Simplified: writing to the visitor succeeds; other users of the thread are left out (there may be some: C101); the
library finds the candidates `all`, then reports the end; after `Close` there are no callbacks. Contract of the library: the
callbacks of one connection run one at a time, and a call waits while one is running.
-/
namespace Verif.P2P.Gather

/-- libcs/client/conn.go:594 -/
def places : Nat := 16

/-- Where `processOffer` or `getOffer` is. -/
inductive Pc where
  /-- before `SetLocalDescription` -/
  | setLocal
  /-- before `GetLocalDescription` (libcs/client/peer.go:402, 465) -/
  | getLocal
  /-- in the loop of `response` -/
  | reading
  | done
deriving DecidableEq, Repr

/-- Where `Close` is; it is carried out once. -/
inductive Closer where
  | idle
  /-- `closeChan` is closed; before `pt.conn.Close()` -/
  | waiting
  | finished
deriving DecidableEq, Repr

structure St where
  pc : Pc := .setLocal
  closer : Closer := .idle
  /-- what the library has still to report; `none` is the end -/
  pending : List (Option Nat)
  /-- the signalling thread is in the callback for the first of them -/
  inCall : Bool := false
  /-- `candidateOutChan` -/
  chan : List (Option Nat) := []
  written : List Nat := []
deriving DecidableEq, Repr

def init (all : List Nat) : St := { pending := all.map some ++ [none] }

inductive Step : St → St → Prop where
  /-- `SetLocalDescription` -/
  | setLocal (s : St) : s.pc = .setLocal → Step s { s with pc := .getLocal }
  /-- a callback begins -/
  | begin (s : St) : s.pc ≠ .setLocal → s.inCall = false → s.pending ≠ [] → Step s { s with inCall := true }
  /-- libcs/client/peer.go:110, 121: it puts its text into the channel, if there is room, and returns -/
  | put (s : St) (c : Option Nat) (p : List (Option Nat)) : s.inCall = true → s.pending = c :: p →
      s.chan.length < places → Step s { s with inCall := false, pending := p, chan := s.chan ++ [c] }
  /-- `GetLocalDescription`, which needs the thread -/
  | getLocal (s : St) : s.pc = .getLocal → s.inCall = false → Step s { s with pc := .reading }
  /-- libcs/client/peer.go:363-373 -/
  | read (s : St) (c : Nat) (q : List (Option Nat)) : s.pc = .reading → s.chan = some c :: q →
      Step s { s with chan := q, written := s.written ++ [c] }
  | readEnd (s : St) (q : List (Option Nat)) : s.pc = .reading → s.chan = none :: q →
      Step s { s with chan := q, pc := .done }
  /-- libcs/client/peer.go:374-376 -/
  | readClosed (s : St) : s.pc = .reading → s.closer ≠ .idle → Step s { s with pc := .done }
  /-- libcs/client/peer.go:153-157, 170-174: somebody closes: the timer, the visitor, the tunnel, the client -/
  | close (s : St) : s.closer = .idle → Step s { s with closer := .waiting }
  /-- libcs/client/peer.go:160, 179 `pt.conn.Close()`, which needs the thread -/
  | closed (s : St) : s.closer = .waiting → s.inCall = false →
      Step s { s with closer := .finished, pending := [] }

/-- A finite run. -/
inductive Run : St → St → Nat → Prop where
  | refl (s : St) : Run s s 0
  | step {a b c : St} {n : Nat} : Run a b n → Step b c → Run a c (n + 1)

/-! ## Specification -/

/-- Both the answer and the closing, if there was one, have ended. -/
def Final (s : St) : Prop := s.pc = .done ∧ s.closer ≠ .waiting

/-- Nothing can happen any more, except that somebody decides to close the connection. -/
def Quiet (s : St) : Prop := ∀ s', Step s s' → s.closer = .idle ∧ s'.closer = .waiting

/-- Full property C118: whatever the schedule, nothing can go on for ever, and when nothing goes on any more, the answer
has ended (if nobody closed the connection: completely) and so has a closing. -/
def SetupEnds (all : List Nat) : Prop :=
  (∃ bound, ∀ s n, Run (init all) s n → n ≤ bound) ∧
  ∀ s n, Run (init all) s n → Quiet s → Final s ∧ (s.closer = .idle → s.written = all)

/-! ## Proofs -/

theorem prefix_of {all w : List Nat} {r : List (Option Nat)} (h : w.map some ++ r = all.map some ++ [none]) :
    ∃ rest, w ++ rest = all := by
  induction w generalizing all with
  | nil => exact ⟨all, rfl⟩
  | cons a t ih =>
    cases all with
    | nil => simp at h
    | cons b u =>
      simp only [List.map_cons, List.cons_append, List.cons.injEq, Option.some.injEq] at h
      obtain ⟨rest, hr⟩ := ih h.2
      exact ⟨rest, by rw [List.cons_append, hr, h.1]⟩

theorem all_of {all w : List Nat} {r : List (Option Nat)} (h : w.map some ++ none :: r = all.map some ++ [none]) :
    w = all ∧ r = [] := by
  induction w generalizing all with
  | nil =>
    cases all with
    | nil => simpa using h
    | cons b u => simp at h
  | cons a t ih =>
    cases all with
    | nil => simp at h
    | cons b u =>
      simp only [List.map_cons, List.cons_append, List.cons.injEq, Option.some.injEq] at h
      obtain ⟨h1, h2⟩ := ih h.2
      exact ⟨by rw [h1, h.1], h2⟩

/-- The invariant; `lost` is what was never reported because the connection was closed. -/
structure I (all : List Nat) (s : St) : Prop where
  stream : ∃ lost, s.written.map some ++ s.chan ++ (s.pending ++ lost) = all.map some ++ [none] ∨ s.pc = .done
  whole : s.closer ≠ .finished → s.pc ≠ .done →
    s.written.map some ++ s.chan ++ s.pending = all.map some ++ [none]
  pre : ∃ rest, s.written ++ rest = all
  full : s.closer = .idle → s.pc = .done → s.written = all
  size : s.chan.length + s.pending.length ≤ all.length + 1
  call : s.inCall = true → s.pending ≠ []
  start : s.pc = .setLocal → s.inCall = false
  fin : s.closer = .finished → s.inCall = false ∧ s.pending = []

theorem inv_init (all : List Nat) : I all (init all) := by
  constructor <;> simp [init]

theorem inv_step {all : List Nat} {s s' : St} (h : I all s) (hs : Step s s') : I all s' := by
  obtain ⟨⟨lost, hst⟩, hw, hp, hf, hz, hc, hsl, hfin⟩ := h
  cases hs with
  | setLocal h1 =>
    refine ⟨⟨lost, ?_⟩, ?_, hp, by simp, hz, hc, by simp, hfin⟩
    · rcases hst with h | h
      · exact Or.inl h
      · rw [h1] at h; cases h
    · intro ha hb
      exact hw ha (by rw [h1]; simp)
  | begin h1 h2 h3 =>
    refine ⟨⟨lost, hst⟩, hw, hp, hf, hz, fun _ => h3, fun h => absurd h h1, ?_⟩
    intro h
    exact absurd (hfin h).2 h3
  | put c p h1 h2 h3 =>
    have hnf : s.closer ≠ .finished := by
      intro h; have := (hfin h).1; rw [h1] at this; cases this
    refine ⟨⟨lost, ?_⟩, ?_, hp, hf, ?_, by simp, fun _ => rfl, fun h => absurd h hnf⟩
    · rcases hst with h | h
      · left; rw [h2] at h; simpa using h
      · exact Or.inr h
    · intro ha hb
      have := hw ha hb
      rw [h2] at this
      simpa using this
    · rw [h2] at hz; simp at hz ⊢; omega
  | getLocal h1 h2 =>
    refine ⟨⟨lost, ?_⟩, ?_, hp, by simp, hz, hc, by simp, hfin⟩
    · rcases hst with h | h
      · exact Or.inl h
      · rw [h1] at h; cases h
    · intro ha hb
      exact hw ha (by rw [h1]; simp)
  | read c q h1 h2 =>
    have hst' : s.written.map some ++ s.chan ++ (s.pending ++ lost) = all.map some ++ [none] := by
      rcases hst with h | h
      · exact h
      · rw [h1] at h; cases h
    have hst2 : (s.written ++ [c]).map some ++ q ++ (s.pending ++ lost) = all.map some ++ [none] := by
      rw [h2] at hst'; simpa using hst'
    refine ⟨⟨lost, Or.inl hst2⟩, ?_, ?_, ?_, ?_, hc, hsl, hfin⟩
    · intro ha hb
      have := hw ha hb
      rw [h2] at this
      simpa using this
    · rw [List.append_assoc] at hst2
      exact prefix_of hst2
    · intro _ hb; rw [h1] at hb; cases hb
    · rw [h2] at hz; simp at hz ⊢; omega
  | readEnd q h1 h2 =>
    have hst' : s.written.map some ++ s.chan ++ (s.pending ++ lost) = all.map some ++ [none] := by
      rcases hst with h | h
      · exact h
      · rw [h1] at h; cases h
    refine ⟨⟨lost, Or.inr rfl⟩, by simp, hp, ?_, ?_, hc, by simp, hfin⟩
    · intro _ _
      rw [h2] at hst'
      exact (all_of (by simpa using hst')).1
    · rw [h2] at hz; simp at hz ⊢; omega
  | readClosed h1 h2 =>
    exact ⟨⟨lost, Or.inr rfl⟩, by simp, hp, fun h => absurd h h2, hz, hc, by simp, hfin⟩
  | close h1 =>
    refine ⟨⟨lost, hst⟩, ?_, hp, by simp, hz, hc, hsl, by simp⟩
    intro _ hb
    exact hw (by rw [h1]; simp) hb
  | closed h1 h2 =>
    refine ⟨⟨s.pending ++ lost, by simpa using hst⟩, by simp, hp, by simp, ?_, ?_, hsl, ?_⟩
    · simp; omega
    · simp [h2]
    · simp [h2]

theorem inv_run {all : List Nat} {a s : St} {n : Nat} (h : I all a) (hr : Run a s n) : I all s := by
  induction hr with
  | refl => exact h
  | step _ hs ih => exact inv_step ih hs

def pcRank : Pc → Nat
  | .setLocal => 3
  | .getLocal => 2
  | .reading => 1
  | .done => 0

def closerRank : Closer → Nat
  | .idle => 2
  | .waiting => 1
  | .finished => 0

def measure (s : St) : Nat :=
  pcRank s.pc + closerRank s.closer + 3 * s.pending.length + (if s.inCall then 0 else 1) + s.chan.length

theorem step_measure {all : List Nat} {s s' : St} (h : I all s) (hs : Step s s') : measure s' < measure s := by
  cases hs with
  | setLocal h1 => simp only [measure, h1, pcRank]; omega
  | begin h1 h2 h3 => simp only [measure, h2]; simp
  | put c p h1 h2 h3 => simp only [measure, h1, h2]; simp; omega
  | getLocal h1 h2 => simp only [measure, h1, pcRank]; omega
  | read c q h1 h2 => simp only [measure, h2]; simp
  | readEnd q h1 h2 => simp only [measure, h1, h2, pcRank]; simp; omega
  | readClosed h1 h2 => simp only [measure, h1, pcRank]; omega
  | close h1 => simp only [measure, h1, closerRank]; omega
  | closed h1 h2 => simp only [measure, h1, h2, closerRank]; simp; omega

/-- **C118** Nothing goes on for ever. -/
theorem runs_bounded (all : List Nat) : ∃ bound, ∀ s n, Run (init all) s n → n ≤ bound := by
  refine ⟨measure (init all), ?_⟩
  have key : ∀ s n, Run (init all) s n → n + measure s ≤ measure (init all) := by
    intro s n hr
    induction hr with
    | refl => omega
    | step hr hs ih =>
      have := step_measure (inv_run (inv_init all) hr) hs
      omega
  intro s n hr
  have := key s n hr
  omega

/-- **C118** Whatever the schedule, what the visitor is told is, in order, what the library reported first; and if the answer ends by itself,
it is complete. -/
theorem told_in_order {all : List Nat} {s : St} {n : Nat} (hr : Run (init all) s n) :
    (∃ rest, s.written ++ rest = all) ∧ (s.pc = .done → s.closer = .idle → s.written = all) := by
  have h := inv_run (inv_init all) hr
  exact ⟨h.pre, fun a b => h.full b a⟩

/-- **C118** (part) With at most 15 candidates the set-up always ends, and so does a closing at any moment. -/
theorem setup_ends_partial {all : List Nat} (hn : all.length ≤ 15) : SetupEnds all := by
  have hpl : places = 16 := rfl
  refine ⟨runs_bounded all, ?_⟩
  intro s n hr hquiet
  have hstop : ∀ s', s'.closer = s.closer → ¬ Step s s' := by
    intro s' he hs
    obtain ⟨h1, h2⟩ := hquiet s' hs
    rw [he, h1] at h2; cases h2
  have h := inv_run (inv_init all) hr
  have hz := h.size
  have hnocall : s.inCall = false := by
    cases hc : s.inCall with
    | false => rfl
    | true =>
      cases hp : s.pending with
      | nil => exact absurd hp (h.call hc)
      | cons c p =>
        refine absurd (Step.put s c p hc hp ?_) (hstop _ rfl)
        rw [hp] at hz
        simp at hz
        omega
  have hpc : s.pc = .done := by
    cases hpc : s.pc with
    | done => rfl
    | setLocal => exact absurd (Step.setLocal s hpc) (hstop _ rfl)
    | getLocal => exact absurd (Step.getLocal s hpc hnocall) (hstop _ rfl)
    | reading =>
      cases hch : s.chan with
      | cons c q =>
        cases c with
        | some c => exact absurd (Step.read s c q hpc hch) (hstop _ rfl)
        | none => exact absurd (Step.readEnd s q hpc hch) (hstop _ rfl)
      | nil =>
        cases hp : s.pending with
        | cons c p =>
          exact absurd (Step.begin s (by rw [hpc]; simp) hnocall (by rw [hp]; simp)) (hstop _ rfl)
        | nil =>
          cases hcl : s.closer with
          | idle =>
            have hw := h.whole (by rw [hcl]; simp) (by rw [hpc]; simp)
            rw [hch, hp] at hw
            simp only [List.append_nil] at hw
            have := congrArg (fun l => none ∈ l) hw
            simp at this
          | waiting => exact absurd (Step.readClosed s hpc (by rw [hcl]; simp)) (hstop _ rfl)
          | finished => exact absurd (Step.readClosed s hpc (by rw [hcl]; simp)) (hstop _ rfl)
  have hcl : s.closer ≠ .waiting := by
    intro hcl
    have := (hquiet _ (Step.closed s hcl hnocall)).1
    rw [hcl] at this; cases this
  exact ⟨⟨hpc, hcl⟩, fun hi => h.full hi hpc⟩

/-- The thread waits for room in the channel and nobody reads: it waits for ever. -/
def Jammed (s : St) : Prop :=
  s.inCall = true ∧ s.chan.length = places ∧ (s.pc = .getLocal ∨ s.pc = .done)

theorem jammed_step {s s' : St} (h : Jammed s) (hs : Step s s') :
    Jammed s' ∧ s'.pc = s.pc ∧ s'.written = s.written ∧ (s.closer ≠ .finished → s'.closer ≠ .finished) := by
  obtain ⟨h1, h2, h3⟩ := h
  cases hs with
  | setLocal a => rcases h3 with h | h <;> rw [h] at a <;> cases a
  | begin a b c => rw [h1] at b; cases b
  | put c p a b d => omega
  | getLocal a b => rw [h1] at b; cases b
  | read c q a b => rcases h3 with h | h <;> rw [h] at a <;> cases a
  | readEnd q a b => rcases h3 with h | h <;> rw [h] at a <;> cases a
  | readClosed a b => rcases h3 with h | h <;> rw [h] at a <;> cases a
  | close a => exact ⟨⟨h1, h2, h3⟩, rfl, rfl, by simp⟩
  | closed a b => rw [h1] at b; cases b

theorem jammed_run {s s' : St} {n : Nat} (h : Jammed s) (hr : Run s s' n) :
    Jammed s' ∧ s'.pc = s.pc ∧ s'.written = s.written ∧ (s.closer ≠ .finished → s'.closer ≠ .finished) := by
  induction hr with
  | refl => exact ⟨h, rfl, rfl, id⟩
  | step _ hs ih =>
    obtain ⟨i1, i2, i3, i4⟩ := ih
    obtain ⟨j1, j2, j3, j4⟩ := jammed_step i1 hs
    exact ⟨j1, j2.trans i2, j3.trans i3, fun h => j4 (i4 h)⟩

/-- the library reports `k` candidates while the program is at `pc` -/
theorem fill_run {s : St} {n : Nat} {a : St} (hr : Run a s n) (hpc : s.pc ≠ .setLocal) (hc : s.inCall = false)
    (k : Nat) (hk : k < s.pending.length) (hroom : s.chan.length + k ≤ places) :
    ∃ m s', Run a s' m ∧ s'.pc = s.pc ∧ s'.inCall = false ∧ s'.pending = s.pending.drop k ∧
      s'.chan = s.chan ++ s.pending.take k ∧ s'.closer = s.closer ∧ s'.written = s.written := by
  induction k with
  | zero => exact ⟨n, s, hr, rfl, hc, by simp, by simp, rfl, rfl⟩
  | succ k ih =>
    obtain ⟨m, s', h1, h2, h3, h4, h5, h6, h7⟩ := ih (by omega) (by omega)
    have hkl : k < s.pending.length := by omega
    have hd : s.pending.drop k = s.pending[k] :: s.pending.drop (k + 1) := by
      rw [List.drop_eq_getElem_cons (by omega)]
    have hne : s'.pending ≠ [] := by rw [h4, hd]; exact List.cons_ne_nil _ _
    have b := Step.begin s' (by rw [h2]; exact hpc) h3 hne
    have hlen : s'.chan.length < places := by
      rw [h5]; simp; omega
    have c := Step.put { s' with inCall := true } s.pending[k] (s.pending.drop (k + 1)) rfl (by rw [← hd]; exact h4) hlen
    refine ⟨_, _, Run.step (Run.step h1 b) c, h2, rfl, rfl, ?_, h6, h7⟩
    simp only
    rw [h5, List.append_assoc]
    congr 1
    rw [List.take_succ_eq_append_getElem (by omega)]

/-- **C118 fails**: with 16 candidates or more there are schedules after which the visitor is never answered, although nobody
closed the connection: they were all found before the program got to asking for its own description. A
closing, by the time limit or when the client shuts down, does not end either. -/
theorem never_answered {all : List Nat} (hn : 16 ≤ all.length) :
    ∃ s n, Run (init all) s n ∧ s.closer = .idle ∧
      ∀ s' m, Run s s' m → s'.pc = .getLocal ∧ s'.written = [] ∧ s'.closer ≠ .finished := by
  have hpl : places = 16 := rfl
  have r1 := Run.step (Run.refl (init all)) (Step.setLocal (init all) rfl)
  obtain ⟨m, s1, h1, h2, h3, h4, h5, h6, h7⟩ := fill_run r1 (by simp [init]) rfl places
    (by simp [init]; omega) (by simp [init])
  have hne : s1.pending ≠ [] := by
    rw [h4]
    intro h
    have := congrArg List.length h
    simp [init] at this
    omega
  have hpc : s1.pc = .getLocal := h2
  have b := Step.begin s1 (by rw [hpc]; simp) h3 hne
  refine ⟨_, _, Run.step h1 b, h6, ?_⟩
  intro s' k hr
  have hj : Jammed { s1 with inCall := true } := by
    refine ⟨rfl, ?_, Or.inl hpc⟩
    simp only
    rw [h5]
    simp [init]
    omega
  obtain ⟨_, j2, j3, j4⟩ := jammed_run hj hr
  exact ⟨j2.trans hpc, j3.trans h7, j4 (by simp only; rw [h6]; simp [init])⟩

/-- **C118 fails**: with 16 candidates or more a closing during the answer may never end, and with it whoever
closed: a shutdown of the client, or the tunnel's reader, holding the lock on all peers. -/
theorem close_never_ends {all : List Nat} (hn : 16 ≤ all.length) :
    ∃ s n, Run (init all) s n ∧ s.pc = .done ∧ s.closer = .waiting ∧
      ∀ s' m, Run s s' m → s'.closer = .waiting := by
  have hpl : places = 16 := rfl
  have r1 := Run.step (Run.refl (init all)) (Step.setLocal (init all) rfl)
  have r2 := Run.step r1 (Step.getLocal _ rfl rfl)
  obtain ⟨m, s1, h1, h2, h3, h4, h5, h6, h7⟩ := fill_run r2 (by simp [init]) rfl places
    (by simp [init]; omega) (by simp [init])
  have hne : s1.pending ≠ [] := by
    rw [h4]
    intro h
    have := congrArg List.length h
    simp [init] at this
    omega
  have hpc : s1.pc = .reading := h2
  have b := Step.begin s1 (by rw [hpc]; simp) h3 hne
  have c := Step.close { s1 with inCall := true } h6
  have d := Step.readClosed { s1 with inCall := true, closer := .waiting } hpc (by simp)
  refine ⟨_, _, Run.step (Run.step (Run.step h1 b) c) d, rfl, rfl, ?_⟩
  intro s' k hr
  have hj : Jammed { s1 with inCall := true, closer := .waiting, pc := .done } := by
    refine ⟨rfl, ?_, Or.inr rfl⟩
    simp only
    rw [h5]
    simp [init]
    omega
  have key : ∀ s s' k, Run s s' k → Jammed s → s.closer = .waiting → s'.closer = .waiting := by
    intro s s' k hr hj hw
    induction hr with
    | refl => exact hw
    | step hr hs ih =>
      have hj' := (jammed_run hj hr).1
      cases hs with
      | close a => rw [ih] at a
      | closed a b => rw [hj'.1] at b; cases b
      | setLocal => exact ih
      | begin => exact ih
      | put => exact ih
      | getLocal => exact ih
      | read => exact ih
      | readEnd => exact ih
      | readClosed => exact ih
  exact key _ _ _ hr hj rfl

theorem not_setup_ends {all : List Nat} (hn : 16 ≤ all.length) : ¬ SetupEnds all := by
  rintro ⟨⟨bound, hb⟩, hend⟩
  obtain ⟨s, n, hr, _, hs⟩ := never_answered hn
  -- the longest run from `s`
  have key : ∀ k s n, Run (init all) s n → bound - n ≤ k → ∃ s' m, Run s s' m ∧ ∀ x, ¬ Step s' x := by
    intro k
    induction k with
    | zero =>
      intro s n hr hk
      refine ⟨s, 0, Run.refl s, ?_⟩
      intro x hx
      have := hb _ _ (Run.step hr hx)
      have := hb _ _ hr
      omega
    | succ k ih =>
      intro s n hr hk
      by_cases hx : ∃ x, Step s x
      · obtain ⟨x, hx⟩ := hx
        obtain ⟨s', m, h1, h2⟩ := ih x (n + 1) (Run.step hr hx) (by omega)
        have pre : ∀ {b c : St} {m : Nat}, Run b c m → ∀ {a : St}, Step a b → Run a c (m + 1) := by
          intro b c m h
          induction h with
          | refl => intro a ha; exact Run.step (Run.refl a) ha
          | step _ hs ih => intro a ha; exact Run.step (ih ha) hs
        exact ⟨s', _, pre h1 hx, h2⟩
      · exact ⟨s, 0, Run.refl s, fun x h => hx ⟨x, h⟩⟩
  obtain ⟨s', m, h1, h2⟩ := key bound s n hr (by omega)
  have happ : ∀ {b c : St} {m : Nat}, Run b c m → ∀ {a : St} {n : Nat}, Run a b n → Run a c (n + m) := by
    intro b c m h
    induction h with
    | refl => intro a n ha; exact ha
    | step _ hs ih => intro a n ha; exact Run.step (ih ha) hs
  have hf := (hend s' _ (happ h1 hr) (fun x hx => absurd hx (h2 x))).1.1
  rw [(hs s' m h1).1] at hf
  cases hf

/-! ## Witnesses -/
example : SetupEnds [1, 2, 3] := setup_ends_partial (by decide)
example : ¬ SetupEnds (List.replicate 16 0) := not_setup_ends (by decide)

end Verif.P2P.Gather
