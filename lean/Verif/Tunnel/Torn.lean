import Verif.Tunnel.Lemmas
set_option linter.unusedSimpArgs false
set_option linter.unusedVariables false
/-!
# C152: many writers on one tunnel: deadlines and torn frames (libcs/conn/conn.go:42-57, libcs/server/conn.go:59-66, 980-1096)

Every visitor of a tunnel has a goroutine that writes frames to it with `Connection.Write`, and so have the signals. `Connection.Write`
sets the write deadline of the connection, `Timeout` from now, and writes. The connection (Go's `net.Conn`, TCP or TLS) lets one writer
in after the other, and a deadline is the connection's: it counts for every write that is being made or is waiting, and setting it again
moves it for all of them. A write whose deadline passes fails, with a part of the frame written.

`sticky` says what comes after a failed write: on TLS (`crypto/tls`: "after a Write has timed out, the TLS state is corrupt and all
future writes will return the same error") every write fails; on TCP the next one is let through. The visitor whose write failed closes the
tunnel (libcs/server/conn.go:983-1007), in a later step; the writers of signals that ignore the error
(`SendForceCloseSignal`, `SendCloseSignal`, `SendReconnectSignal`, libcs/conn/conn.go:206-235; `SendInfoTCPPortOpened`,
libcs/server/conn.go:1118-1120, 1152-1154) do not. Closing is an event of its own here, which may happen at any time or never.

Time is a number; bytes are moved one step at a time, `room` is what the peer's side takes now (its receive window). A TLS record reaches
the peer whole or not at all, which is a special case of `push` with the right amounts. Frames are not empty (the code writes none).
-/
namespace Verif.Tunnel.Torn

abbrev Bytes := List UInt8

/-- A write: who makes it, the whole frame, and what of it is not yet written. -/
structure Wr where
  id : Nat
  frame : Bytes
  rest : Bytes
deriving DecidableEq

structure St where
  now : Nat := 0
  /-- the connection's write deadline, if one was set -/
  dl : Nat := 0
  room : Nat := 0
  /-- what the peer was sent, in order -/
  sent : Bytes := []
  closed : Bool := false
  /-- a write has failed, and the connection remembers it -/
  broken : Bool := false
  /-- writers that wait for their turn -/
  queue : List Wr := []
  /-- the writer whose turn it is -/
  active : Option Wr := none
  /-- the frames whose writes were reported as successful, in order -/
  done : List Bytes := []
  /-- the writers whose writes were reported as failed -/
  failed : List Nat := []
deriving DecidableEq

inductive Ev where
  /-- a call of `Write` -/
  | start (id : Nat) (frame : Bytes)
  /-- a waiting writer gets its turn -/
  | turn (i : Nat)
  /-- up to `n` bytes go out -/
  | push (n : Nat)
  /-- the peer makes room -/
  | read (n : Nat)
  /-- time passes -/
  | tick (d : Nat)
  /-- somebody closes the tunnel -/
  | close
deriving DecidableEq

/-- The deadline has passed. -/
def expired (T : Nat) (s : St) : Bool := decide (0 < T) && decide (s.dl ≤ s.now)

/-- The active write fails. -/
def fail (sticky : Bool) (s : St) : St :=
  match s.active with
  | none => s
  | some w => { s with active := none, failed := s.failed ++ [w.id], broken := s.broken || sticky }

/-- libcs/conn/conn.go:42-57 and the standard library's connection below it; `T` is `WriteTimeout`, 0 for none. -/
def step (T : Nat) (sticky : Bool) (s : St) : Ev → St
  | .start id f =>
    if f = [] then s
    else if s.closed then { s with failed := s.failed ++ [id] }
    else { s with dl := if 0 < T then s.now + T else s.dl, queue := s.queue ++ [⟨id, f, f⟩] }
  | .turn i =>
    match s.active, s.queue[i]? with
    | none, some w =>
      if s.closed || s.broken || expired T s then { s with queue := s.queue.eraseIdx i, failed := s.failed ++ [w.id] }
      else { s with queue := s.queue.eraseIdx i, active := some w }
    | _, _ => s
  | .push n =>
    match s.active with
    | none => s
    | some w =>
      let k := min n s.room
      let s' := { s with sent := s.sent ++ w.rest.take k, room := s.room - (w.rest.take k).length }
      if w.rest.drop k = [] then { s' with active := none, done := s.done ++ [w.frame] }
      else { s' with active := some { w with rest := w.rest.drop k } }
  | .read n => { s with room := s.room + n }
  | .tick d =>
    let s' := { s with now := s.now + d }
    if expired T s' then fail sticky s' else s'
  | .close => fail sticky { s with closed := true }

def run (T : Nat) (sticky : Bool) (s : St) : List Ev → St
  | [] => s
  | e :: es => run T sticky (step T sticky s e) es

theorem run_append (T : Nat) (sticky : Bool) (a b : List Ev) : ∀ s, run T sticky s (a ++ b) = run T sticky (run T sticky s a) b := by
  induction a with
  | nil => intro s; rfl
  | cons e a ih => intro s; exact ih _

/-! ## Specification -/

/-- The peer was sent the frames `done`, one after the other, and behind them at most a part of one more frame that was begun. -/
def Clean (es : List Ev) (s : St) : Prop :=
  (∀ f ∈ s.done, ∃ id, Ev.start id f ∈ es) ∧
  ∃ part, s.sent = s.done.flatten ++ part ∧ (part = [] ∨ ∃ id f, Ev.start id f ∈ es ∧ part <+: f ∧ part ≠ f)

/-- The time that passes. -/
def elapsed : List Ev → Nat
  | [] => 0
  | .tick d :: es => d + elapsed es
  | _ :: es => elapsed es

def isStart : Ev → Bool
  | .start _ _ => true
  | _ => false

/-! ## Whole frames -/

structure Inv (F : Bytes → Prop) (s : St) : Prop where
  queue : ∀ w ∈ s.queue, w.rest = w.frame ∧ F w.frame ∧ w.frame ≠ []
  done : ∀ f ∈ s.done, F f
  run : ∀ w, s.active = some w → F w.frame ∧ w.rest ≠ [] ∧ ∃ part, w.frame = part ++ w.rest ∧ s.sent = s.done.flatten ++ part
  idle : s.active = none → s.sent = s.done.flatten ∨ ((s.broken = true ∨ s.closed = true) ∧
    ∃ part f, F f ∧ part <+: f ∧ part ≠ f ∧ s.sent = s.done.flatten ++ part)

theorem inv_fail {F : Bytes → Prop} {s : St} (sticky : Bool) (h : Inv F s) (hs : sticky = true ∨ s.closed = true) : Inv F (fail sticky s) := by
  unfold fail
  match ha : s.active with
  | none => exact h
  | some w =>
    obtain ⟨h1, h2, part, h3, h4⟩ := h.run w ha
    refine ⟨h.queue, h.done, fun w hw => by simp at hw, fun _ => Or.inr ⟨?_, part, w.frame, h1, ?_, ?_, h4⟩⟩
    · rcases hs with hs | hs
      · left; simp [hs]
      · right; exact hs
    · rw [h3]; exact List.prefix_append _ _
    · rw [h3]; intro hx
      have := congrArg List.length hx
      simp at this
      exact h2 this

theorem inv_step {F : Bytes → Prop} {T : Nat} {sticky : Bool} {s : St} {e : Ev} (hk : sticky = true ∨ T = 0)
    (he : ∀ id f, e = .start id f → F f) (h : Inv F s) : Inv F (step T sticky s e) := by
  cases e with
  | start id f =>
    have hf := he id f rfl
    unfold step
    simp only
    by_cases h0 : f = []
    · rw [if_pos h0]; exact h
    rw [if_neg h0]
    by_cases hc : s.closed = true
    · rw [if_pos hc]; exact ⟨h.queue, h.done, h.run, h.idle⟩
    rw [if_neg hc]
    refine ⟨?_, h.done, h.run, h.idle⟩
    intro w hw
    simp only [List.mem_append, List.mem_singleton] at hw
    rcases hw with hw | rfl
    · exact h.queue w hw
    · exact ⟨rfl, hf, h0⟩
  | turn i =>
    unfold step
    simp only
    match ha : s.active, hq : s.queue[i]? with
    | some _, _ => simp only [ha]; exact h
    | none, none => simp only [ha, hq]; exact h
    | none, some w =>
      simp only [ha, hq]
      have hmem : w ∈ s.queue := List.mem_of_getElem? hq
      have hsub : ∀ x ∈ s.queue.eraseIdx i, x ∈ s.queue := fun x hx => List.mem_of_mem_eraseIdx hx
      by_cases hb : (s.closed || s.broken || expired T s) = true
      · rw [if_pos hb]
        exact ⟨fun x hx => h.queue x (hsub x hx), h.done, fun w hw => by simp [ha] at hw, fun _ => h.idle ha⟩
      · rw [if_neg hb]
        simp only [Bool.or_eq_true, not_or, Bool.not_eq_true] at hb
        obtain ⟨q1, q2, q3⟩ := h.queue w hmem
        refine ⟨fun x hx => h.queue x (hsub x hx), h.done, ?_, fun hx => by simp at hx⟩
        intro x hx
        simp only [Option.some.injEq] at hx
        subst hx
        refine ⟨q2, by rw [q1]; exact q3, [], by rw [q1]; rfl, ?_⟩
        rcases h.idle ha with hi | ⟨hi, -⟩
        · rw [List.append_nil]; exact hi
        · rcases hi with hi | hi
          · rw [hb.1.2] at hi; cases hi
          · rw [hb.1.1] at hi; cases hi
  | push n =>
    unfold step
    simp only
    match ha : s.active with
    | none => simp only; exact h
    | some w =>
      simp only
      obtain ⟨h1, h2, part, h3, h4⟩ := h.run w ha
      by_cases hd : w.rest.drop (min n s.room) = []
      · rw [if_pos hd]
        have ht : w.rest.take (min n s.room) = w.rest := by
          have := List.take_append_drop (min n s.room) w.rest
          rw [hd, List.append_nil] at this; exact this
        refine ⟨h.queue, ?_, fun x hx => by simp at hx, fun _ => Or.inl ?_⟩
        · intro f hf
          simp only [List.mem_append, List.mem_singleton] at hf
          rcases hf with hf | rfl
          · exact h.done f hf
          · exact h1
        · simp only [ht, h4, List.flatten_append, List.flatten_cons, List.flatten_nil, List.append_nil, List.append_assoc, h3]
      · rw [if_neg hd]
        refine ⟨h.queue, h.done, ?_, fun hx => by simp at hx⟩
        intro x hx
        simp only [Option.some.injEq] at hx
        subst hx
        refine ⟨h1, hd, part ++ w.rest.take (min n s.room), ?_, ?_⟩
        · simp only [List.append_assoc, List.take_append_drop, h3]
        · simp only [h4, List.append_assoc]
  | read n => exact ⟨h.queue, h.done, h.run, h.idle⟩
  | tick d =>
    unfold step
    simp only
    have h' : Inv F { s with now := s.now + d } := ⟨h.queue, h.done, h.run, h.idle⟩
    by_cases hx : expired T { s with now := s.now + d } = true
    · rw [if_pos hx]
      refine inv_fail sticky h' (Or.inl ?_)
      rcases hk with hk | hk
      · exact hk
      · subst hk; simp [expired] at hx
    · rw [if_neg hx]; exact h'
  | close =>
    refine inv_fail sticky ⟨h.queue, h.done, h.run, fun ha => ?_⟩ (Or.inr rfl)
    rcases h.idle ha with hi | ⟨-, hi⟩
    · exact Or.inl hi
    · exact Or.inr ⟨Or.inr rfl, hi⟩

theorem inv_run {F : Bytes → Prop} {T : Nat} {sticky : Bool} (hk : sticky = true ∨ T = 0) : ∀ (es : List Ev) (s : St),
    (∀ id f, Ev.start id f ∈ es → F f) → Inv F s → Inv F (run T sticky s es) := by
  intro es
  induction es with
  | nil => intro s _ h; exact h
  | cons e es ih =>
    intro s he h
    exact ih _ (fun id f hm => he id f (by simp [hm])) (inv_step hk (fun id f hx => he id f (by simp [hx])) h)

/-- **Frames stay whole** on TLS tunnels and on tunnels without a timeout, whatever number of visitors write, however slowly the peer
reads, whichever writes fail and whenever the tunnel is closed: the peer is sent exactly the frames whose writes were reported as
successful, one after the other, and behind them at most the beginning of one frame, after which nothing comes. On TCP with a timeout it is
false (`torn_frame_delivered`). -/
theorem frames_stay_whole_partial (T : Nat) (sticky : Bool) (hk : sticky = true ∨ T = 0) (es : List Ev) : Clean es (run T sticky {} es) := by
  have h0 : Inv (fun f => ∃ id, Ev.start id f ∈ es) {} :=
    ⟨fun w hw => by simp at hw, fun f hf => by simp at hf, fun w hw => by simp at hw, fun _ => Or.inl rfl⟩
  have h := inv_run hk es {} (fun id f hm => ⟨id, hm⟩) h0
  refine ⟨h.done, ?_⟩
  match ha : (run T sticky {} es).active with
  | none =>
    rcases h.idle ha with hi | ⟨-, part, f, ⟨id, hf⟩, hp, hn, hi⟩
    · exact ⟨[], by rw [List.append_nil]; exact hi, Or.inl rfl⟩
    · exact ⟨part, hi, Or.inr ⟨id, f, hf, hp, hn⟩⟩
  | some w =>
    obtain ⟨⟨id, hf⟩, h2, part, h3, h4⟩ := h.run w ha
    refine ⟨part, h4, Or.inr ⟨id, w.frame, hf, by rw [h3]; exact List.prefix_append _ _, ?_⟩⟩
    rw [h3]; intro hx
    have := congrArg List.length hx
    simp at this
    exact h2 this

/-- Nothing is sent after a failed write on TLS. -/
theorem nothing_after_failure (T : Nat) (es : List Ev) : ∀ s : St, s.broken = true → s.active = none →
    (run T true s es).sent = s.sent ∧ (run T true s es).done = s.done := by
  induction es with
  | nil => intro s _ _; exact ⟨rfl, rfl⟩
  | cons e es ih =>
    intro s hb ha
    have key : (step T true s e).broken = true ∧ (step T true s e).active = none ∧ (step T true s e).sent = s.sent ∧
        (step T true s e).done = s.done := by
      cases e with
      | start id f =>
        unfold step; simp only
        by_cases h0 : f = []
        · rw [if_pos h0]; exact ⟨hb, ha, rfl, rfl⟩
        rw [if_neg h0]
        by_cases hc : s.closed = true
        · rw [if_pos hc]; exact ⟨hb, ha, rfl, rfl⟩
        · rw [if_neg hc]; exact ⟨hb, ha, rfl, rfl⟩
      | turn i =>
        unfold step; simp only [ha, hb, Bool.or_true, Bool.true_or, if_true]
        cases hq : s.queue[i]? with
        | none => refine ⟨?_, ?_, ?_, ?_⟩ <;> simp [hb, ha]
        | some w => refine ⟨?_, ?_, ?_, ?_⟩ <;> simp [hb, ha]
      | push n => unfold step; simp only [ha]; exact ⟨hb, trivial, trivial, trivial⟩
      | read n => exact ⟨hb, ha, rfl, rfl⟩
      | tick d =>
        unfold step; simp only
        by_cases hx : expired T { s with now := s.now + d } = true
        · rw [if_pos hx]; unfold fail; simp only [ha]; exact ⟨hb, trivial, trivial, trivial⟩
        · rw [if_neg hx]; exact ⟨hb, ha, rfl, rfl⟩
      | close => unfold step fail; simp only [ha]; exact ⟨hb, trivial, trivial, trivial⟩
    obtain ⟨k1, k2, k3, k4⟩ := key
    obtain ⟨i1, i2⟩ := ih _ k1 k2
    exact ⟨by show (run T true (step T true s e) es).sent = _; rw [i1, k3], by show (run T true (step T true s e) es).done = _; rw [i2, k4]⟩

/-- Writes that are waiting, being made, reported as successful and reported as failed. -/
def known (s : St) : Nat := s.queue.length + (if s.active = none then 0 else 1) + s.done.length + s.failed.length

/-- The calls of `Write` (with something to write). -/
def calls : List Ev → Nat
  | [] => 0
  | .start _ f :: es => (if f = [] then 0 else 1) + calls es
  | _ :: es => calls es

theorem known_fail (sticky : Bool) (s : St) : known (fail sticky s) = known s := by
  unfold fail
  match ha : s.active with
  | none => rfl
  | some w => simp [known, ha]; omega

theorem known_step (T : Nat) (sticky : Bool) (s : St) (e : Ev) : known (step T sticky s e) = known s + calls [e] := by
  cases e with
  | start id f =>
    unfold step; simp only
    by_cases h0 : f = []
    · rw [if_pos h0]; simp [calls, h0]
    rw [if_neg h0]
    by_cases hc : s.closed = true
    · rw [if_pos hc]; simp [known, calls, h0]; omega
    · rw [if_neg hc]; simp [known, calls, h0]; omega
  | turn i =>
    unfold step; simp only
    match ha : s.active, hq : s.queue[i]? with
    | some _, _ => simp only [ha]; simp [calls]
    | none, none => simp only [ha, hq]; simp [calls]
    | none, some w =>
      simp only [ha, hq]
      have hl := (List.getElem?_eq_some_iff.1 hq).1
      have he := List.length_eraseIdx_of_lt hl
      by_cases hb : (s.closed || s.broken || expired T s) = true
      · rw [if_pos hb]; simp [known, calls, ha, he]; omega
      · rw [if_neg hb]; simp [known, calls, ha, he]; omega
  | push n =>
    unfold step; simp only
    match ha : s.active with
    | none => simp [calls]
    | some w =>
      simp only
      by_cases hd : w.rest.drop (min n s.room) = []
      · rw [if_pos hd]; simp [known, calls, ha]; omega
      · rw [if_neg hd]; simp [known, calls, ha]
  | read n => rfl
  | tick d =>
    unfold step; simp only
    by_cases hx : expired T { s with now := s.now + d } = true
    · rw [if_pos hx, known_fail]; rfl
    · rw [if_neg hx]; rfl
  | close => unfold step; rw [known_fail]; rfl

/-- **Every call of `Write` is answered once**: it is waiting, being made, or was reported as successful or as failed; none is lost and
none is answered twice. -/
theorem every_write_accounted (T : Nat) (sticky : Bool) (es : List Ev) :
    let s := run T sticky {} es
    s.queue.length + (if s.active = none then 0 else 1) + s.done.length + s.failed.length = calls es := by
  have h : ∀ (es : List Ev) (s : St), known (run T sticky s es) = known s + calls es := by
    intro es
    induction es with
    | nil => intro s; rfl
    | cons e es ih =>
      intro s
      show known (run T sticky (step T sticky s e) es) = _
      rw [ih, known_step]
      cases e <;> simp only [calls] <;> omega
  have := h es {}
  simpa [known] using this

/-! ## Torn frames on TCP -/

/-- A frame `a ++ b` is cut after `a` by the deadline, and another writer writes `g` before the tunnel is closed. -/
def tear (T : Nat) (v1 v2 : Nat) (a b g : Bytes) : List Ev :=
  [.start v1 (a ++ b), .turn 0, .read a.length, .push a.length, .tick T, .start v2 g, .turn 0, .read g.length, .push g.length]

theorem tear_run (T v1 v2 : Nat) (a b g : Bytes) (hT : 0 < T) (ha : a ≠ []) (hb : b ≠ []) (hg : g ≠ []) :
    run T false {} (tear T v1 v2 a b g) = { now := T, dl := T + T, room := 0, sent := a ++ g, done := [g], failed := [v1] } := by
  have hb' : b.length ≠ 0 := by simpa using hb
  have hT0 : T ≠ 0 := by omega
  have hT2 : ¬ T + T ≤ T := by omega
  simp [tear, run, step, expired, fail, hT, hT0, hT2, ha, hb, hg]

/-- **On TCP a frame can be torn and another visitor's bytes delivered in its place**: when the peer reads too slowly and the write of
visitor `v1`'s frame runs into the deadline with `q` unwritten, the next write of another visitor is let through (the tunnel is only closed
afterwards), it is reported as successful, and the client reads the beginning of that frame as the rest of `v1`'s data. -/
theorem torn_frame_delivered (T : Nat) (hT : 0 < T) (nsvc v1 v2 : Nat) (p q r : Bytes) (hn : nsvc < 65536) (h1 : v1 < preserved)
    (h2 : v2 < preserved) (h12 : v1 ≠ v2) (hq : q ≠ []) (hl : (p ++ q).length < 4294967296) (hr : q.length ≤ (SFrame.data v2 r).enc.length) :
    ∃ es, let s := run T false {} es
      s.closed = false ∧ s.done = [(SFrame.data v2 r).enc] ∧ ¬ Clean es s ∧
      parseC nsvc s.sent = some (.data v1 (p ++ (SFrame.data v2 r).enc.take q.length), (SFrame.data v2 r).enc.drop q.length) := by
  have hg : (SFrame.data v2 r).enc ≠ [] := by simp [SFrame.enc, be32]
  generalize hG : (SFrame.data v2 r).enc = g at hg hr ⊢
  have ha : be32 v1 ++ be16 opData ++ be32 (p ++ q).length ++ p ≠ [] := by simp [be32]
  refine ⟨tear T v1 v2 (be32 v1 ++ be16 opData ++ be32 (p ++ q).length ++ p) q g, ?_⟩
  rw [tear_run T v1 v2 _ q g hT ha hq hg]
  refine ⟨rfl, rfl, ?_, ?_⟩
  · rintro ⟨-, part, hs, -⟩
    simp only [List.flatten_cons, List.flatten_nil, List.append_nil] at hs
    rw [← hG] at hs
    simp only [SFrame.enc, be32, List.cons_append, List.nil_append, List.append_assoc, List.cons.injEq] at hs
    have e1 := rd32_be32 (n := v1) (by unfold preserved at h1; omega)
    have e2 := rd32_be32 (n := v2) (by unfold preserved at h2; omega)
    rw [hs.1, hs.2.1, hs.2.2.1, hs.2.2.2.1, e2] at e1
    exact h12 e1.symm
  · have e : (be32 v1 ++ be16 opData ++ be32 (p ++ q).length ++ p) ++ g =
        (SFrame.data v1 (p ++ g.take q.length)).enc ++ g.drop q.length := by
      have hlen : (p ++ g.take q.length).length = (p ++ q).length := by
        simp only [List.length_append, List.length_take]; omega
      simp only [SFrame.enc, hlen, List.append_assoc, List.take_append_drop]
    show parseC nsvc ((be32 v1 ++ be16 opData ++ be32 (p ++ q).length ++ p) ++ g) = _
    rw [e, parseC_enc nsvc hn (.data v1 (p ++ g.take q.length)) ⟨h1, by
      have : (p ++ g.take q.length).length = (p ++ q).length := by
        simp only [List.length_append, List.length_take]; omega
      omega⟩]
    rfl

/-! ## Deadlines -/

/-- With a timeout a write that is being made is before the deadline, which is at most `T` ahead. -/
structure Timed (T : Nat) (s : St) : Prop where
  ahead : s.dl ≤ s.now + T
  active : s.active ≠ none → s.now < s.dl

theorem timed_step {T : Nat} {sticky : Bool} {s : St} (e : Ev) (hT : 0 < T) (h : Timed T s) : Timed T (step T sticky s e) ∧
    (isStart e = false → (step T sticky s e).dl = s.dl) ∧ (step T sticky s e).now = s.now + elapsed [e] := by
  obtain ⟨h1, h2⟩ := h
  cases e with
  | start id f =>
    unfold step; simp only
    by_cases h0 : f = []
    · rw [if_pos h0]; exact ⟨⟨h1, h2⟩, fun hx => rfl, rfl⟩
    rw [if_neg h0]
    by_cases hc : s.closed = true
    · rw [if_pos hc]; exact ⟨⟨h1, h2⟩, fun hx => rfl, rfl⟩
    · rw [if_neg hc, if_pos hT]
      exact ⟨⟨Nat.le_refl _, fun _ => by show s.now < s.now + T; omega⟩, fun hx => by simp [isStart] at hx, rfl⟩
  | turn i =>
    unfold step; simp only
    match ha : s.active, hq : s.queue[i]? with
    | some _, _ => simp only [ha]; exact ⟨⟨h1, h2⟩, by simp, by simp [elapsed]⟩
    | none, none => simp only [ha, hq]; exact ⟨⟨h1, h2⟩, by simp, by simp [elapsed]⟩
    | none, some w =>
      simp only [ha, hq]
      by_cases hb : (s.closed || s.broken || expired T s) = true
      · rw [if_pos hb]; exact ⟨⟨h1, fun hx => absurd rfl hx⟩, fun _ => rfl, rfl⟩
      · rw [if_neg hb]
        refine ⟨⟨h1, fun _ => ?_⟩, fun _ => rfl, rfl⟩
        simp only [expired, hT, decide_true, Bool.true_and, Bool.or_eq_true, not_or, decide_eq_true_eq] at hb
        have := hb.2
        show s.now < s.dl
        omega
  | push n =>
    unfold step; simp only
    match ha : s.active with
    | none => exact ⟨⟨h1, h2⟩, fun _ => rfl, rfl⟩
    | some w =>
      simp only
      have hlt := h2 (by rw [ha]; simp)
      by_cases hd : w.rest.drop (min n s.room) = []
      · rw [if_pos hd]; exact ⟨⟨h1, fun _ => hlt⟩, fun _ => rfl, rfl⟩
      · rw [if_neg hd]; exact ⟨⟨h1, fun _ => hlt⟩, fun _ => rfl, rfl⟩
  | read n => exact ⟨⟨h1, h2⟩, fun _ => rfl, rfl⟩
  | tick d =>
    unfold step; simp only
    by_cases hx : expired T { s with now := s.now + d } = true
    · rw [if_pos hx]; unfold fail
      match ha : s.active with
      | none => simp only [ha]; exact ⟨⟨by show s.dl ≤ s.now + d + T; omega, by simp [ha]⟩, by simp, by simp [elapsed]⟩
      | some w => simp only [ha]; exact ⟨⟨by show s.dl ≤ s.now + d + T; omega, by simp⟩, by simp, by simp [elapsed]⟩
    · rw [if_neg hx]
      refine ⟨⟨by show s.dl ≤ s.now + d + T; omega, fun _ => ?_⟩, fun _ => rfl, rfl⟩
      simp only [expired, hT, decide_true, Bool.true_and, decide_eq_true_eq] at hx
      show s.now + d < s.dl
      omega
  | close =>
    unfold step fail
    match ha : s.active with
    | none => simp only [ha]; exact ⟨⟨h1, by simp [ha]⟩, by simp, by simp [elapsed]⟩
    | some w => simp only [ha]; exact ⟨⟨h1, by simp⟩, by simp, by simp [elapsed]⟩

theorem timed_run {T : Nat} {sticky : Bool} (hT : 0 < T) : ∀ (es : List Ev) (s : St), Timed T s → Timed T (run T sticky s es) ∧
    ((∀ e ∈ es, isStart e = false) → (run T sticky s es).dl = s.dl) ∧ (run T sticky s es).now = s.now + elapsed es := by
  intro es
  induction es with
  | nil => intro s h; exact ⟨h, fun _ => rfl, rfl⟩
  | cons e es ih =>
    intro s h
    obtain ⟨a1, a2, a3⟩ := timed_step (sticky := sticky) e hT h
    obtain ⟨b1, b2, b3⟩ := ih _ a1
    refine ⟨b1, fun he => ?_, ?_⟩
    · show (run T sticky (step T sticky s e) es).dl = _
      rw [b2 (fun x hx => he x (by simp [hx])), a2 (he e (by simp))]
    · show (run T sticky (step T sticky s e) es).now = _
      rw [b3, a3]
      cases e <;> simp only [elapsed] <;> omega

/-- **A stalled tunnel is noticed within the timeout once nobody begins to write any more**: in every history a write is only under way if
less than `Timeout` has passed since the last call of `Write` on this tunnel by anybody. Partial: not since its own call
(`stalled_for_ever`). -/
theorem blocked_only_so_long_partial (T : Nat) (hT : 0 < T) (sticky : Bool) (es quiet : List Ev) (hq : ∀ e ∈ quiet, isStart e = false)
    (ha : (run T sticky {} (es ++ quiet)).active ≠ none) : elapsed quiet < T := by
  rw [run_append] at ha
  obtain ⟨t1, -, -⟩ := timed_run (sticky := sticky) hT es {} ⟨Nat.zero_le _, fun hx => absurd rfl hx⟩
  obtain ⟨t2, e2, e3⟩ := timed_run (sticky := sticky) hT quiet _ t1
  have := t2.active ha
  rw [e2 hq, e3] at this
  have := t1.ahead
  omega

/-- Every `T - 1` another visitor writes. -/
def pile (T : Nat) (f : Bytes) : Nat → List Ev
  | 0 => []
  | n + 1 => pile T f n ++ [.tick (T - 1), .start (n + 2) f]

/-- **A tunnel whose peer does not read is never noticed while visitors keep coming**: each of their writes moves the deadline for all, so
that the write of the first one does not end for as long as one likes, and no write fails. -/
theorem stalled_for_ever (T : Nat) (hT : 1 < T) (sticky : Bool) (f : Bytes) (hf : f ≠ []) (n : Nat) :
    let s := run T sticky {} ([.start 1 f, .turn 0] ++ pile T f n)
    s.active = some ⟨1, f, f⟩ ∧ n ≤ s.now ∧ s.failed = [] ∧ s.sent = [] ∧ s.queue.length = n := by
  have hT0 : 0 < T := by omega
  suffices h : (run T sticky {} ([.start 1 f, .turn 0] ++ pile T f n)).active = some ⟨1, f, f⟩ ∧
      n ≤ (run T sticky {} ([.start 1 f, .turn 0] ++ pile T f n)).now ∧
      (run T sticky {} ([.start 1 f, .turn 0] ++ pile T f n)).failed = [] ∧
      (run T sticky {} ([.start 1 f, .turn 0] ++ pile T f n)).sent = [] ∧
      (run T sticky {} ([.start 1 f, .turn 0] ++ pile T f n)).queue.length = n ∧
      (run T sticky {} ([.start 1 f, .turn 0] ++ pile T f n)).closed = false ∧
      (run T sticky {} ([.start 1 f, .turn 0] ++ pile T f n)).dl = (run T sticky {} ([.start 1 f, .turn 0] ++ pile T f n)).now + T from
    ⟨h.1, h.2.1, h.2.2.1, h.2.2.2.1, h.2.2.2.2.1⟩
  induction n with
  | zero => simp [pile, run, step, expired, hf, hT0, show T ≠ 0 by omega]
  | succ n ih =>
    have e : [.start 1 f, .turn 0] ++ pile T f (n + 1) = ([.start 1 f, .turn 0] ++ pile T f n) ++ [.tick (T - 1), .start (n + 2) f] := by
      simp [pile]
    rw [e, run_append]
    generalize run T sticky {} ([.start 1 f, .turn 0] ++ pile T f n) = s at ih ⊢
    obtain ⟨i1, i2, i3, i4, i5, i6, i7⟩ := ih
    have hx : expired T { s with now := s.now + (T - 1) } = false := by
      simp only [expired, hT0, decide_true, Bool.true_and, decide_eq_false_iff_not, i7]
      omega
    have e1 : step T sticky s (.tick (T - 1)) = { s with now := s.now + (T - 1) } := by
      show (if expired T { s with now := s.now + (T - 1) } = true then _ else _) = _
      rw [hx]; rfl
    have e2 : run T sticky s [.tick (T - 1), .start (n + 2) f] =
        { s with now := s.now + (T - 1), dl := s.now + (T - 1) + T, queue := s.queue ++ [⟨n + 2, f, f⟩] } := by
      show step T sticky (step T sticky s (.tick (T - 1))) (.start (n + 2) f) = _
      rw [e1]
      simp only [step, if_neg hf, i6, Bool.false_eq_true, if_false, hT0, if_true]
    rw [e2]
    refine ⟨i1, ?_, i3, i4, ?_, i6, rfl⟩
    · show n + 1 ≤ s.now + (T - 1); omega
    · show (s.queue ++ [_]).length = n + 1
      simp [i5]

/-! ## Concrete cases -/

/-- Two visitors, a slow peer, both frames whole. -/
example : (run 90 true {} [.start 1 [1, 2, 3], .start 2 [4, 5], .turn 1, .read 1, .push 9, .tick 80, .read 9, .push 9, .turn 0, .push 9]).sent =
    [4, 5, 1, 2, 3] := by decide +kernel

/-- A frame is torn on TLS: the other write fails, too. -/
example : (run 90 true {} [.start 1 [1, 2, 3], .turn 0, .read 2, .push 9, .tick 90, .start 2 [4, 5], .turn 0, .read 9, .push 9]) =
    { now := 90, dl := 180, room := 9, sent := [1, 2], broken := true, failed := [1, 2] } := by decide +kernel

/-- On TCP it is not. -/
example : (run 90 false {} [.start 1 [1, 2, 3], .turn 0, .read 2, .push 9, .tick 90, .start 2 [4, 5], .turn 0, .read 9, .push 9]).sent =
    [1, 2, 4, 5] := by decide +kernel

end Verif.Tunnel.Torn
