import Verif.Common
set_option linter.unusedSimpArgs false
set_option linter.unusedVariables false
/-!
# C102: a TCP connection forwarded over P2P (libcs/client/tcpforward.go:66-133, libcs/client/peer.go:526-622)

An application connects to the forwarder; the forwarder opens a data channel to the other client, which connects to its service. Each
side has a goroutine that reads its connection and sends on the channel; what comes from the channel is written to the connection by
the library's callback.

The library is represented by its contract: a channel is reliable and ordered in both directions; when one end closes it, what was sent
before still arrives, and then the other end is told. (Connecting to the service is the subject of `Callback.lean`, waiting for room of
`SendWait.lean`.)
-/
namespace Verif.P2P.Forward

structure St where
  /-- written by the application, not yet read by the forwarder -/
  appOut : List Nat := []
  /-- the application has ended its side (closed the connection, or only shut down writing) -/
  appEnded : Bool := false
  /-- the forwarder's goroutine is running; it holds the application's connection -/
  fOpen : Bool := true
  /-- the forwarder was told that the channel is closed -/
  fTold : Bool := false
  /-- messages under way to the service's side, and back -/
  up : List Nat := []
  down : List Nat := []
  /-- the goroutine at the service's side is running -/
  rRuns : Bool := true
  /-- the connection to the service is open -/
  rOpen : Bool := true
  rTold : Bool := false
  svcOut : List Nat := []
  svcEnded : Bool := false
  /-- what application and service have received -/
  appGot : List Nat := []
  svcGot : List Nat := []
  /-- ghost: what they have written -/
  appSent : List Nat := []
  svcSent : List Nat := []
deriving DecidableEq, Repr

def init : St := {}

inductive Ev where
  | appSend (v : Nat)
  | appEnd
  | svcSend (v : Nat)
  | svcEnd
  /-- the forwarder's goroutine reads once -/
  | fRead
  /-- the goroutine at the service's side reads once -/
  | rRead
  /-- a message arrives at the service's side -/
  | upArrives
  | downArrives
  /-- the forwarder is told that the other end closed the channel -/
  | fTell
  | rTell
deriving DecidableEq, Repr

/-- The application and the service. -/
def Ev.outside : Ev → Bool
  | .appSend _ | .appEnd | .svcSend _ | .svcEnd => true
  | _ => false

/-- libcs/client/tcpforward.go:115-131: one pass of the loop. Returning closes the channel (109) and the application's connection (70).
(Simplification: one message per written item.) -/
def fRead (s : St) : St :=
  if s.fOpen then
    match s.appOut with
    | v :: o => if s.fTold then { s with fOpen := false } else { s with appOut := o, up := s.up ++ [v] }
    | [] => if s.appEnded then { s with fOpen := false } else s
  else s

/-- libcs/client/peer.go:569-591: one pass of the loop. Returning closes the connection to the service (563) and the channel (546). -/
def rRead (s : St) : St :=
  if s.rRuns then
    if s.rOpen then
      match s.svcOut with
      | v :: o => if s.rTold then { s with rRuns := false, rOpen := false } else { s with svcOut := o, down := s.down ++ [v] }
      | [] => if s.svcEnded then { s with rRuns := false, rOpen := false } else s
    else { s with rRuns := false }
  else s

def next (s : St) : Ev → St
  | .appSend v => if s.appEnded ∨ s.fOpen = false then s else { s with appOut := s.appOut ++ [v], appSent := s.appSent ++ [v] }
  | .appEnd => { s with appEnded := true }
  | .svcSend v => if s.svcEnded ∨ s.rOpen = false then s else { s with svcOut := s.svcOut ++ [v], svcSent := s.svcSent ++ [v] }
  | .svcEnd => { s with svcEnded := true }
  | .fRead => fRead s
  | .rRead => rRead s
  -- libcs/client/peer.go:608-622 `OnMessage`; nothing comes through once the channel is closed here
  | .upArrives =>
    match s.up with
    | v :: u => if s.rRuns then { s with up := u, svcGot := if s.rOpen then s.svcGot ++ [v] else s.svcGot } else { s with up := u }
    | [] => s
  -- libcs/client/tcpforward.go:84-90 `OnMessage`
  | .downArrives =>
    match s.down with
    | v :: d => if s.fOpen then { s with down := d, appGot := s.appGot ++ [v] } else { s with down := d }
    | [] => s
  -- libcs/client/tcpforward.go:77-83 `OnStateChange`: nothing but a token for whoever waits
  | .fTell => if s.rRuns = false ∧ s.down = [] ∧ s.fOpen then { s with fTold := true } else s
  -- libcs/client/peer.go:600-604 `OnStateChange`: the connection to the service is closed
  | .rTell => if s.fOpen = false ∧ s.up = [] ∧ s.rRuns then { s with rTold := true, rOpen := false } else s

def run (s : St) : List Ev → St
  | [] => s
  | e :: es => run (next s e) es

theorem run_append (s : St) (a b : List Ev) : run s (a ++ b) = run (run s a) b := by
  induction a generalizing s with
  | nil => rfl
  | cons e a ih => exact ih _

/-! ## Specification -/

/-- Nothing is left to do inside: until application or service act, nothing changes. -/
def Settled (s : St) : Prop := ∀ e : Ev, e.outside = false → next s e = s

/-- What is left to do inside. -/
def todo (s : St) : Nat :=
  2 * s.appOut.length + s.up.length + 2 * s.svcOut.length + s.down.length +
    (if s.fOpen then 1 else 0) + (if s.fTold then 0 else 1) + (if s.rRuns then 1 else 0) + (if s.rOpen then 1 else 0) + (if s.rTold then 0 else 1)

/-- **Inside it never goes on for ever**: every step that changes anything leaves less to do. -/
theorem settles (s : St) (e : Ev) (he : e.outside = false) : next s e = s ∨ todo (next s e) < todo s := by
  obtain ⟨appOut, appEnded, fOpen, fTold, up, down, rRuns, rOpen, rTold, svcOut, svcEnded, appGot, svcGot, appSent, svcSent⟩ := s
  cases e with
  | appSend v => simp [Ev.outside] at he
  | appEnd => simp [Ev.outside] at he
  | svcSend v => simp [Ev.outside] at he
  | svcEnd => simp [Ev.outside] at he
  | fRead =>
    cases fOpen
    · left; rfl
    · cases appOut with
      | nil => cases appEnded <;> simp [next, fRead, todo]
      | cons v o =>
        right
        cases fTold <;> simp [next, fRead, todo] <;> omega
  | rRead =>
    cases rRuns
    · left; rfl
    · cases rOpen
      · right; simp [next, rRead, todo]
      · cases svcOut with
        | nil => cases svcEnded <;> simp [next, rRead, todo] <;> omega
        | cons v o =>
          right
          cases rTold <;> simp [next, rRead, todo] <;> omega
  | upArrives =>
    cases up with
    | nil => left; rfl
    | cons v u => right; cases rRuns <;> simp [next, todo] <;> omega
  | downArrives =>
    cases down with
    | nil => left; rfl
    | cons v u => right; cases fOpen <;> simp [next, todo] <;> omega
  | fTell =>
    simp only [next]
    split
    · cases fTold
      · right; simp [todo]
      · left; rfl
    · left; rfl
  | rTell =>
    simp only [next]
    split
    · cases rTold
      · right; cases rOpen <;> simp [todo] <;> omega
      · cases rOpen
        · left; rfl
        · right; simp [todo]
    · left; rfl

/-! ## The invariant -/

structure Inv (s : St) : Prop where
  /-- what reached the service is a prefix of what the application wrote -/
  upPre : ∃ t, s.svcGot ++ t = s.appSent
  /-- nothing is missing while the service's connection is open -/
  upAll : s.rOpen = true → s.svcGot ++ s.up ++ s.appOut = s.appSent
  downPre : ∃ t, s.appGot ++ t = s.svcSent
  downAll : s.fOpen = true → s.rOpen = true → s.appGot ++ s.down ++ s.svcOut = s.svcSent
  openRuns : s.rOpen = true → s.rRuns = true
  runsTold : s.rRuns = true → s.rOpen = false → s.rTold = true
  fTold_ : s.fTold = true → s.rRuns = false
  rTold_ : s.rTold = true → s.fOpen = false ∧ s.rOpen = false ∧ s.svcGot = s.appSent
  /-- the service's side stops only for a reason -/
  rStop : s.rOpen = false → s.rTold = true ∨ (s.svcEnded = true ∧ s.svcOut = [] ∧ (s.fOpen = true → s.appGot ++ s.down = s.svcSent))
  /-- the forwarder stops only for a reason -/
  fStop : s.fOpen = false → s.fTold = true ∨ (s.appEnded = true ∧ s.appOut = [])
  rToldEnd : s.rTold = true → s.appEnded = true
  fToldEnd : s.fTold = true → s.svcEnded = true

theorem inv_init : Inv init := by
  constructor <;> simp [init]

theorem inv_next (s : St) (e : Ev) (h : Inv s) : Inv (next s e) := by
  have h0 := h
  obtain ⟨appOut, appEnded, fOpen, fTold, up, down, rRuns, rOpen, rTold, svcOut, svcEnded, appGot, svcGot, appSent, svcSent⟩ := s
  obtain ⟨h1, h2, h3, h4, h5, h6, h7, h8, h9, h10, h11, h12⟩ := h
  simp only at h1 h2 h3 h4 h5 h6 h7 h8 h9 h10 h11 h12
  cases e with
  | appSend v =>
    simp only [next]
    split
    · exact h0
    · rename_i hc
      simp only [not_or, Bool.not_eq_true, Bool.not_eq_false] at hc
      obtain ⟨t, h1⟩ := h1
      refine ⟨⟨t ++ [v], by rw [← List.append_assoc, h1]⟩, fun hr => ?_, h3, h4, h5, h6, h7, ?_, h9, ?_, h11, h12⟩
      · rw [← List.append_assoc, h2 hr]
      · intro hr; have := (h8 hr).1; simp [hc.2] at this
      · intro hf; simp only at hf; rw [hc.2] at hf; cases hf
  | appEnd => exact ⟨h1, h2, h3, h4, h5, h6, h7, h8, h9, fun hf => (h10 hf).imp id (fun h => ⟨rfl, h.2⟩), fun _ => rfl, h12⟩
  | svcSend v =>
    simp only [next]
    split
    · exact h0
    · rename_i hc
      simp only [not_or, Bool.not_eq_true, Bool.not_eq_false] at hc
      obtain ⟨t, h3⟩ := h3
      refine ⟨h1, h2, ⟨t ++ [v], by rw [← List.append_assoc, h3]⟩, fun hf hr => ?_, h5, h6, h7, h8, ?_, h10, h11, h12⟩
      · rw [← List.append_assoc, h4 hf hr]
      · intro hr; simp only at hr; rw [hc.2] at hr; cases hr
  | svcEnd => exact ⟨h1, h2, h3, h4, h5, h6, h7, h8, fun hf => (h9 hf).imp id (fun h => ⟨rfl, h.2⟩), h10, h11, fun _ => rfl⟩
  | fRead =>
    simp only [next, fRead]
    split
    · rename_i hf
      subst hf
      cases appOut with
      | nil =>
        simp only
        split
        · rename_i ha
          exact ⟨h1, h2, h3, by simp, h5, h6, h7, fun hr => ⟨rfl, (h8 hr).2⟩, fun hr => (h9 hr).imp id (fun h => ⟨h.1, h.2.1, by simp⟩),
            fun _ => Or.inr ⟨ha, rfl⟩, h11, h12⟩
        · exact h0
      | cons v o =>
        simp only
        split
        · rename_i ha
          exact ⟨h1, h2, h3, by simp, h5, h6, h7, fun hr => ⟨rfl, (h8 hr).2⟩, fun hr => (h9 hr).imp id (fun h => ⟨h.1, h.2.1, by simp⟩),
            fun _ => Or.inl ha, h11, h12⟩
        · refine ⟨h1, fun hr => ?_, h3, h4, h5, h6, h7, fun hr => ?_, h9, by simp, h11, h12⟩
          · have := h2 hr; simpa using this
          · have := (h8 hr).1; simp at this
    · exact h0
  | rRead =>
    simp only [next, rRead]
    split
    · rename_i hr
      subst hr
      split
      · rename_i ho
        subst ho
        cases svcOut with
        | nil =>
          simp only
          split
          · rename_i ha
            refine ⟨h1, by simp, h3, by simp, by simp, by simp, by simp, fun hr => ?_, fun _ => Or.inr ⟨ha, rfl, fun hf => ?_⟩, h10, h11, h12⟩
            · have := (h8 hr).2.1; simp at this
            · have := h4 hf rfl; simpa using this
          · exact h0
        | cons v o =>
          simp only
          split
          · rename_i ha
            have := (h8 ha).2.1; simp at this
          · refine ⟨h1, h2, h3, fun hf hr => ?_, h5, h6, h7, h8, by simp, h10, h11, h12⟩
            have := h4 hf rfl; simpa using this
      · rename_i ho
        exact ⟨h1, fun h => absurd h ho, h3, fun _ h => absurd h ho, fun h => absurd h ho, by simp, by simp, h8, h9, h10, h11, h12⟩
    · exact h0
  | upArrives =>
    cases up with
    | nil => exact h0
    | cons v u =>
      simp only [next]
      split
      · rename_i hr
        cases rOpen with
        | true =>
          have h := h2 rfl
          refine ⟨⟨u ++ appOut, by rw [← h]; simp⟩, fun _ => by rw [← h]; simp, h3, h4, h5, h6, h7, fun hr => ?_, h9, h10, h11, h12⟩
          have := (h8 hr).2.1; simp at this
        | false => exact ⟨h1, by simp, h3, h4, h5, h6, h7, h8, h9, h10, h11, h12⟩
      · rename_i hr
        have ho : rOpen = false := by
          cases rOpen with
          | true => exact absurd (h5 rfl) hr
          | false => rfl
        subst ho
        exact ⟨h1, by simp, h3, h4, h5, h6, h7, h8, h9, h10, h11, h12⟩
  | downArrives =>
    cases down with
    | nil => exact h0
    | cons v d =>
      simp only [next]
      split
      · rename_i hf
        subst hf
        have key : ∃ t, appGot ++ [v] ++ t = svcSent := by
          cases rOpen with
          | true => exact ⟨d ++ svcOut, by rw [← h4 rfl rfl]; simp⟩
          | false =>
            rcases h9 rfl with h | h
            · have := (h8 h).1; simp at this
            · exact ⟨d, by rw [← h.2.2 rfl]; simp⟩
        refine ⟨h1, h2, key, fun _ hr => by rw [← h4 rfl hr]; simp, h5, h6, h7, h8, fun hr => ?_, h10, h11, h12⟩
        exact (h9 hr).imp id (fun h => ⟨h.1, h.2.1, fun _ => by rw [← h.2.2 rfl]; simp⟩)
      · rename_i hf
        simp only [Bool.not_eq_true] at hf
        subst hf
        exact ⟨h1, h2, h3, by simp, h5, h6, h7, h8, fun hr => (h9 hr).imp id (fun h => ⟨h.1, h.2.1, by simp⟩), h10, h11, h12⟩
  | fTell =>
    simp only [next]
    split
    · rename_i hc
      refine ⟨h1, h2, h3, h4, h5, h6, fun _ => hc.1, h8, h9, fun _ => Or.inl rfl, h11, fun _ => ?_⟩
      have ho : rOpen = false := by
        cases rOpen with
        | true => have := h5 rfl; simp [hc.1] at this
        | false => rfl
      rcases h9 ho with h | h
      · have := (h8 h).1; simp [hc.2.2] at this
      · exact h.1
    · exact h0
  | rTell =>
    simp only [next]
    split
    · rename_i hc
      obtain ⟨c1, c2, c3⟩ := hc
      subst c1 c2 c3
      have hft : appEnded = true ∧ appOut = [] := by
        rcases h10 rfl with h | h
        · exact absurd (h7 h) (by simp)
        · exact h
      refine ⟨h1, by simp, h3, by simp, by simp, by simp, h7, fun _ => ⟨rfl, rfl, ?_⟩, fun _ => Or.inl rfl, h10, fun _ => hft.1, h12⟩
      cases rOpen with
      | false => exact (h8 (h6 rfl rfl)).2.2
      | true =>
        rw [hft.2] at h2
        have := h2 rfl
        simpa using this
    · exact h0

theorem inv_run (s : St) (h : Inv s) (es : List Ev) : Inv (run s es) := by
  induction es generalizing s with
  | nil => exact h
  | cons e es ih => exact ih _ (inv_next s e h)

/-! ## What holds -/

/-- **In both directions a prefix of what was written arrives**: in order, nothing twice, nothing skipped - for every interleaving. -/
theorem prefixes (es : List Ev) : (∃ t, (run init es).svcGot ++ t = (run init es).appSent) ∧
    (∃ t, (run init es).appGot ++ t = (run init es).svcSent) :=
  ⟨(inv_run _ inv_init es).upPre, (inv_run _ inv_init es).downPre⟩

/-- **While nobody has ended the connection it stays open and everything arrives**: once settled, each has received all that the
other wrote.
C102. Missing from the claim: the ends of the connection, where it is false (`service_end_not_passed_on`, `half_close_loses_answer`). -/
theorem open_complete_partial (es : List Ev) (hs : Settled (run init es)) (ha : (run init es).appEnded = false)
    (hv : (run init es).svcEnded = false) :
    (run init es).fOpen = true ∧ (run init es).rOpen = true ∧
    (run init es).svcGot = (run init es).appSent ∧ (run init es).appGot = (run init es).svcSent := by
  have h := inv_run _ inv_init es
  generalize run init es = s at *
  obtain ⟨appOut, appEnded, fOpen, fTold, up, down, rRuns, rOpen, rTold, svcOut, svcEnded, appGot, svcGot, appSent, svcSent⟩ := s
  obtain ⟨h1, h2, h3, h4, h5, h6, h7, h8, h9, h10, h11, h12⟩ := h
  simp only at h1 h2 h3 h4 h5 h6 h7 h8 h9 h10 h11 h12 ha hv ⊢
  subst ha hv
  have e1 : rTold = false := by simpa using h11
  have e2 : fTold = false := by simpa using h12
  subst e1 e2
  have hr : rOpen = true := by
    cases rOpen with
    | true => rfl
    | false => simpa using h9 rfl
  have hf : fOpen = true := by
    cases fOpen with
    | true => rfl
    | false => simpa using h10 rfl
  subst hr hf
  have hrr := h5 rfl
  subst hrr
  have s1 := hs .fRead rfl
  have s2 := hs .rRead rfl
  have s3 := hs .upArrives rfl
  have s4 := hs .downArrives rfl
  have i1 : appOut = [] := by
    cases appOut with
    | nil => rfl
    | cons v o => simp [next, fRead] at s1
  have i2 : svcOut = [] := by
    cases svcOut with
    | nil => rfl
    | cons v o => simp [next, rRead] at s2
  have i3 : up = [] := by
    cases up with
    | nil => rfl
    | cons v o => simp [next] at s3
  have i4 : down = [] := by
    cases down with
    | nil => rfl
    | cons v o => simp [next] at s4
  subst i1 i2 i3 i4
  exact ⟨rfl, rfl, by simpa using h2 rfl, by simpa using h4 rfl rfl⟩

/-- **When the application ends, everything ends**: once settled the connection to the service is closed and both goroutines are gone;
and if the service has not ended by itself it has received everything the application wrote. -/
theorem app_end_passed_on (es : List Ev) (hs : Settled (run init es)) (ha : (run init es).appEnded = true) :
    (run init es).fOpen = false ∧ (run init es).rOpen = false ∧ (run init es).rRuns = false ∧
    ((run init es).svcEnded = false → (run init es).svcGot = (run init es).appSent) := by
  have h := inv_run _ inv_init es
  generalize run init es = s at *
  obtain ⟨appOut, appEnded, fOpen, fTold, up, down, rRuns, rOpen, rTold, svcOut, svcEnded, appGot, svcGot, appSent, svcSent⟩ := s
  obtain ⟨h1, h2, h3, h4, h5, h6, h7, h8, h9, h10, h11, h12⟩ := h
  simp only at h1 h2 h3 h4 h5 h6 h7 h8 h9 h10 h11 h12 ha ⊢
  subst ha
  have s1 := hs .fRead rfl
  have s2 := hs .rRead rfl
  have s3 := hs .upArrives rfl
  have s5 := hs .rTell rfl
  have hf : fOpen = false := by
    cases fOpen with
    | false => rfl
    | true =>
      cases appOut with
      | nil => simp [next, fRead] at s1
      | cons v o => cases fTold <;> simp [next, fRead] at s1
  subst hf
  have i3 : up = [] := by
    cases up with
    | nil => rfl
    | cons v o => cases rRuns <;> simp [next] at s3
  subst i3
  have hrr : rRuns = false := by
    cases rRuns with
    | false => rfl
    | true =>
      simp only [next, and_self, if_true] at s5
      have : rOpen = false := by simpa using congrArg St.rOpen s5.symm
      subst this
      simp [next, rRead] at s2
  subst hrr
  have hr : rOpen = false := by simpa using h5
  subst hr
  refine ⟨rfl, rfl, rfl, fun hv => ?_⟩
  rcases h9 rfl with h | h
  · exact (h8 h).2.2
  · simp [hv] at h

/-- **When the service ends, everything it wrote still arrives** at an application that has not ended. -/
theorem service_end_complete (es : List Ev) (hs : Settled (run init es)) (ha : (run init es).appEnded = false)
    (hv : (run init es).svcEnded = true) (hf : (run init es).fOpen = true) :
    (run init es).rOpen = false ∧ (run init es).appGot = (run init es).svcSent := by
  have h := inv_run _ inv_init es
  generalize run init es = s at *
  obtain ⟨appOut, appEnded, fOpen, fTold, up, down, rRuns, rOpen, rTold, svcOut, svcEnded, appGot, svcGot, appSent, svcSent⟩ := s
  obtain ⟨h1, h2, h3, h4, h5, h6, h7, h8, h9, h10, h11, h12⟩ := h
  simp only at h1 h2 h3 h4 h5 h6 h7 h8 h9 h10 h11 h12 ha hv hf ⊢
  subst ha hv hf
  have s2 := hs .rRead rfl
  have s4 := hs .downArrives rfl
  have e1 : rTold = false := by simpa using h11
  subst e1
  have hr : rOpen = false := by
    cases rOpen with
    | false => rfl
    | true =>
      have := h5 rfl
      subst this
      cases svcOut with
      | nil => simp [next, rRead] at s2
      | cons v o => simp [next, rRead] at s2
  subst hr
  have i4 : down = [] := by
    cases down with
    | nil => rfl
    | cons v o => simp [next] at s4
  subst i4
  rcases h9 rfl with h | h
  · simp at h
  · exact ⟨rfl, by simpa using h.2.2 rfl⟩

/-! ## What does not hold -/

/-- Neither writes nor ends. -/
def Ev.quiet : Ev → Bool
  | .appSend _ | .appEnd => false
  | _ => true

/-- **Violated: the end of the service is not passed on.** An application that waits (whose bytes have all been read, and that does not
write) is never told, whatever happens: its connection stays open for ever. -/
theorem service_end_not_passed_on (s : St) (ho : s.fOpen = true) (hn : s.appOut = []) (ha : s.appEnded = false) (es : List Ev)
    (hq : ∀ e ∈ es, e.quiet = true) : (run s es).fOpen = true := by
  have : ∀ (es : List Ev) (s : St), s.fOpen = true → s.appOut = [] → s.appEnded = false → (∀ e ∈ es, e.quiet = true) → (run s es).fOpen = true := by
    intro es
    induction es with
    | nil => intro s ho _ _ _; exact ho
    | cons e es ih =>
      intro s ho hn ha hq
      have hq' : ∀ e ∈ es, e.quiet = true := fun e he => hq e (by simp [he])
      have he := hq e (by simp)
      refine ih _ ?_ ?_ ?_ hq'
      all_goals
        cases e with
        | appSend v => simp [Ev.quiet] at he
        | appEnd => simp [Ev.quiet] at he
        | svcSend v => simp only [next]; split <;> assumption
        | svcEnd => assumption
        | fRead => simp only [next, fRead, ho, hn, ha, if_true]; simp [ho, hn, ha]
        | rRead => simp only [next, rRead]; repeat' split <;> try assumption
        | upArrives => simp only [next]; repeat' split <;> try assumption
        | downArrives => simp only [next]; repeat' split <;> try assumption
        | fTell => simp only [next]; split <;> assumption
        | rTell => simp only [next]; split <;> assumption
  exact this es s ho hn ha hq

/-- It happens: a service that answers and closes (as HTTP/1.0 servers do). The application has the whole answer, but no end of file. -/
theorem service_end_reachable : ∃ es : List Ev, (run init es).svcEnded = true ∧ (run init es).rOpen = false ∧ (run init es).fTold = true ∧
    (run init es).appGot = [7] ∧ (run init es).fOpen = true ∧ (run init es).appOut = [] ∧ (run init es).appEnded = false :=
  ⟨[.appSend 1, .fRead, .upArrives, .svcSend 7, .svcEnd, .rRead, .rRead, .downArrives, .fTell],
    by decide, by decide, by decide, by decide, by decide, by decide, by decide⟩

/-- The application finds out only by writing. -/
theorem next_write_ends (s : St) (v : Nat) (o : List Nat) (ht : s.fTold = true) (ho : s.appOut = v :: o) : (next s .fRead).fOpen = false := by
  simp only [next, fRead]
  split
  · simp only [ho, ht, if_true]
  · rename_i h; simpa using h

/-- **Violated: an application that ends only its sending side loses the answer.** After the forwarder has read the end of file nothing
reaches the application any more, whatever the service answers. -/
theorem half_close_loses_answer (s : St) (ho : s.fOpen = true) (hn : s.appOut = []) (ha : s.appEnded = true) (es : List Ev) :
    (run s (.fRead :: es)).appGot = s.appGot := by
  have : ∀ (es : List Ev) (s : St), s.fOpen = false → (run s es).appGot = s.appGot := by
    intro es
    induction es with
    | nil => intro s _; rfl
    | cons e es ih =>
      intro s hf
      have key : (next s e).fOpen = false ∧ (next s e).appGot = s.appGot := by
        cases e with
        | appSend v => simp [next, hf]
        | appEnd => exact ⟨hf, rfl⟩
        | svcSend v => simp only [next]; split <;> exact ⟨hf, rfl⟩
        | svcEnd => exact ⟨hf, rfl⟩
        | fRead => simp [next, fRead, hf]
        | rRead => simp only [next, rRead]; repeat' split <;> try exact ⟨hf, rfl⟩
        | upArrives => simp only [next]; repeat' split <;> try exact ⟨hf, rfl⟩
        | downArrives =>
          simp only [next]
          split
          · simp [hf]
          · exact ⟨hf, rfl⟩
        | fTell => simp [next, hf]
        | rTell => simp only [next]; split <;> exact ⟨hf, rfl⟩
      rw [run, ih _ key.1, key.2]
  rw [run, this]
  · simp [next, fRead, ho, hn, ha]
  · simp [next, fRead, ho, hn, ha]

/-- A request that is ended before its answer. -/
example : (run init [.appSend 1, .appEnd, .fRead, .fRead, .upArrives, .svcSend 7, .rRead, .downArrives]).appGot = [] ∧
    (run init [.appSend 1, .appEnd, .fRead, .fRead, .upArrives, .svcSend 7, .rRead, .downArrives]).svcSent = [7] := by decide

/-! ### Witnesses -/

example : Settled (run init [.appSend 1, .fRead, .upArrives, .svcSend 7, .rRead, .downArrives]) := by
  intro e he; cases e <;> first | rfl | simp [Ev.outside] at he
example : (run init [.appSend 1, .fRead, .upArrives, .svcSend 7, .rRead, .downArrives]).appGot = [7] := by decide
example : Settled (run init [.appSend 1, .appEnd, .fRead, .fRead, .upArrives, .rTell, .rRead]) := by
  intro e he; cases e <;> first | rfl | simp [Ev.outside] at he
example : (run init [.appSend 1, .appEnd, .fRead, .fRead, .upArrives, .rTell, .rRead]).svcGot = [1] := by decide
example : Settled (run init [.svcSend 7, .svcEnd, .rRead, .rRead, .downArrives, .fTell]) := by
  intro e he; cases e <;> first | rfl | simp [Ev.outside] at he

end Verif.P2P.Forward
