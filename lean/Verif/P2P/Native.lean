import Verif.Common
set_option linter.unusedSimpArgs false
set_option linter.unusedVariables false
/-!
# C147: the WebRTC connection object of a P2P session (libcs/client/peer.go, libcs/client/webrtc/peerconnection.go, peerconnection.cpp)

The object lives outside Go: it is made by `NewPeerConnection`, used through a raw pointer, and released by
`DeletePeerConnection`. Nobody checks the uses. Here the requests, the timers and the library's callbacks of one session run as threads
interleaved in any order, and everything the library is asked to do is written to a log; the specification judges the log.

Simplifications: a use stands for a call that reaches the library's connection (descriptions and candidates that can not be parsed do
not); handlers may stop early at any point (errors; a panic on a missing object, which is recovered, peer.go:251-255).
-/
namespace Verif.P2P.Native

/-- What the library sees, and the decision to close the session. Objects are numbered in the order in which they are made. -/
inductive Act where
  /-- object `n` is made; `ok` if the library accepted the configuration (peerconnection.cpp:118-171) -/
  | made (n : Nat) (ok : Bool)
  /-- a call on object `n` -/
  | used (n : Nat)
  /-- a data channel is made on object `n` -/
  | channel (n : Nat)
  /-- object `n` is released -/
  | deleted (n : Nat)
  /-- the library says that object `n` needs negotiation -/
  | fired (n : Nat)
  /-- the session decides to close -/
  | closed
deriving DecidableEq, Repr

/-! ## The specification -/

/-- Object `n` can be used after `past`: it was made, the library accepted it, and it was not released. -/
def Usable (n : Nat) (past : List Act) : Prop := Act.made n true ∈ past ∧ Act.deleted n ∉ past

/-- The log (newest first) asks nothing of an object that is not there, and the session's channel `waitNegotiationNeeded` is closed
at most once: everything else ends the client. -/
def Sound : List Act → Prop
  | [] => True
  | .used n :: past => Usable n past ∧ Sound past
  | .channel n :: past => Usable n past ∧ Sound past
  | .deleted n :: past => Usable n past ∧ Sound past
  | .fired n :: past => (∀ m, Act.fired m ∉ past) ∧ Sound past
  | _ :: past => Sound past

/-- No object is made or used after the session decided to close. -/
def Quiet : List Act → Prop
  | [] => True
  | .made _ _ :: past => Act.closed ∉ past ∧ Quiet past
  | .used _ :: past => Act.closed ∉ past ∧ Quiet past
  | .channel _ :: past => Act.closed ∉ past ∧ Quiet past
  | _ :: past => Quiet past

def isDeleted : Act → Bool
  | .deleted _ => true
  | _ => false

def isMade : Act → Bool
  | .made _ _ => true
  | _ => false

/-- The number of the object an entry makes. -/
def madeNum : Act → Option Nat
  | .made n _ => some n
  | _ => none

/-- The objects that were made and not released. -/
def left (log : List Act) : List Nat := (log.filterMap madeNum).filter (fun n => !log.contains (.deleted n))

/-! ## The model -/

/-- The steps of the handlers. -/
inductive Op where
  /-- `process` looks at `initDone` with an offer (peer.go:305, 381-383) -/
  | enterOffer
  /-- `process` looks at `initDone` with an answer or a candidate (peer.go:305-318, 505) -/
  | enterAnswer
  /-- `init` (peer.go:128-150) -/
  | create
  /-- a call on `pt.conn` -/
  | use
  /-- `CreateDataChannel` (peer.go:431) -/
  | channel
  /-- `<-pt.waitNegotiationNeeded` or `<-pt.closeChan` (peer.go:449-454) -/
  | await
  /-- `CompareAndSwap(&pt.closing, 0, 1)` (peer.go:153, 170) -/
  | cas
  /-- `pt.conn.Close()` (peer.go:160-162, 179-181) -/
  | del
deriving DecidableEq, Repr

/-- The ways into a session. -/
inductive Handler where
  | offer | getOffer | answer | close
deriving DecidableEq, Repr

/-- libcs/client/peer.go:381-413 (`processOffer`), 415-472 (`getOffer`), 474-517 (`processAnswer`; also every further candidate,
311-323), 152-186 (`Close`, `CloseWithLock`: the timer, the library's report of a lost connection, the end of the tunnel). -/
def program : Handler → List Op
  | .offer => [.enterOffer]
  | .getOffer => [.create, .channel, .await, .use, .use, .use]
  | .answer => [.enterAnswer]
  | .close => [.cas, .del]

structure St where
  th : Nat → List Op := fun _ => []
  /-- handlers started -/
  n : Nat := 0
  /-- `pt.conn`: the number of the object -/
  conn : Option Nat := none
  made : Nat := 0
  initDone : Bool := false
  closing : Bool := false
  /-- `waitNegotiationNeeded` is closed -/
  signalled : Bool := false
  /-- newest first -/
  log : List Act := []

def upd (f : Nat → List Op) (c : Nat) (v : List Op) : Nat → List Op := fun x => if x = c then v else f x

inductive Ev where
  | start (h : Handler)
  /-- thread `i` takes its next step; `ok`: what the library says if that is `NewPeerConnection` -/
  | run (i : Nat) (ok : Bool)
  /-- thread `i` returns early -/
  | quit (i : Nat)
  /-- the library reports that object `n` needs negotiation (peer.go:85-87) -/
  | fire (n : Nat)
deriving DecidableEq, Repr

/-- Thread `i`, whose remaining steps are `o :: rest`, takes a step (the lines at `Op`). -/
def exec (s : St) (i : Nat) (ok : Bool) (rest : List Op) : Op → St
  | .enterOffer =>
    if s.initDone then { s with th := upd s.th i [.use] }
    else { s with th := upd s.th i [.create, .use, .use, .use, .use], initDone := true }
  | .enterAnswer => { s with th := upd s.th i [.use], initDone := true }
  | .create =>
    -- peerconnection.go:183-207: the pointer is stored before the library answers, and stays when it refuses
    { s with th := upd s.th i (if ok then rest else []), conn := some s.made, made := s.made + 1,
             log := .made s.made ok :: s.log }
  | .use =>
    match s.conn with
    | none => { s with th := upd s.th i [] }
    | some n => { s with th := upd s.th i rest, log := .used n :: s.log }
  | .channel =>
    match s.conn with
    | none => { s with th := upd s.th i [] }
    | some n => { s with th := upd s.th i rest, log := .channel n :: s.log }
  | .await =>
    if s.signalled then { s with th := upd s.th i rest }
    else if s.closing then { s with th := upd s.th i [] }
    else s
  | .cas =>
    if s.closing then { s with th := upd s.th i [] }
    else { s with th := upd s.th i rest, closing := true, log := .closed :: s.log }
  | .del =>
    match s.conn with
    | none => { s with th := upd s.th i rest }
    | some n => { s with th := upd s.th i rest, log := .deleted n :: s.log }

def step (s : St) : Ev → St
  | .start h => { s with th := upd s.th s.n (program h), n := s.n + 1 }
  | .run i ok =>
    match s.th i with
    | [] => s
    | o :: rest => exec s i ok rest o
  | .quit i =>
    match s.th i with
    | .cas :: _ => s
    | .del :: _ => s
    | _ => { s with th := upd s.th i [] }
  | .fire n =>
    -- once per object that has a channel and was not released
    if Act.channel n ∈ s.log ∧ Act.fired n ∉ s.log ∧ Act.deleted n ∉ s.log then
      { s with signalled := true, log := .fired n :: s.log }
    else s

def run (es : List Ev) : St := es.foldl step {}

theorem run_snoc (es : List Ev) (e : Ev) : run (es ++ [e]) = step (run es) e := by
  simp [run, List.foldl_append]

/-! ## The invariant -/

/-- Neither closing nor releasing. -/
def Plain (l : List Op) : Prop := Op.cas ∉ l ∧ Op.del ∉ l

structure InvA (s : St) : Prop where
  shape : ∀ i, Plain (s.th i) ∨ s.th i = [.cas, .del] ∨ s.th i = [.del]
  one : ∀ i j, s.th i = [.del] → s.th j = [.del] → i = j
  pend : ∀ i, s.th i = [.del] → s.closing = true ∧ s.log.filter isDeleted = []
  calm : s.closing = false → s.log.filter isDeleted = []
  le : (s.log.filter isDeleted).length ≤ 1
  flag : s.closing = true ↔ Act.closed ∈ s.log
  idle : ∀ i, s.n ≤ i → s.th i = []

structure InvB (s : St) : Prop where
  num : ∀ m ok, Act.made m ok ∈ s.log → m < s.made
  cur : ∀ m, s.conn = some m → ∃ ok, Act.made m ok ∈ s.log
  lone : s.conn = none → s.made = 0
  delm : ∀ m, Act.deleted m ∈ s.log → ∃ ok, Act.made m ok ∈ s.log
  chan : ∀ m, Act.fired m ∈ s.log → Act.channel m ∈ s.log

theorem plain_nil : Plain [] := by simp [Plain]

theorem upd_shape {s : St} (h : ∀ i, Plain (s.th i) ∨ s.th i = [.cas, .del] ∨ s.th i = [.del]) (i : Nat) (v : List Op)
    (hv : Plain v ∨ v = [.cas, .del] ∨ v = [.del]) : ∀ j, Plain (upd s.th i v j) ∨ upd s.th i v j = [.cas, .del] ∨ upd s.th i v j = [.del] := by
  intro j; unfold upd; split
  · exact hv
  · exact h j

theorem upd_eq_del {f : Nat → List Op} {i j : Nat} {v : List Op} (hv : v ≠ [.del]) (h : upd f i v j = [.del]) : f j = [.del] ∧ j ≠ i := by
  unfold upd at h; split at h
  · exact absurd h hv
  · rename_i hj; exact ⟨h, hj⟩

theorem Plain.tail {o : Op} {l : List Op} (h : Plain (o :: l)) : Plain l := by
  simp only [Plain, List.mem_cons, not_or] at h ⊢; exact ⟨h.1.2, h.2.2⟩

theorem Plain.ne {l : List Op} (h : Plain l) : l ≠ [.del] := by
  rintro rfl; simp [Plain] at h

theorem filter_cons_of {a : Act} {l : List Act} (h : isDeleted a = false) : (a :: l).filter isDeleted = l.filter isDeleted := by
  rw [List.filter_cons, h]; rfl

theorem A_plain {s s' : St} (h : InvA s) (i : Nat) (v : List Op) (hp : Plain (s.th i)) (hv : Plain v) (hne : s.th i ≠ [])
    (ht : s'.th = upd s.th i v) (hc : s'.closing = s.closing) (hn : s'.n = s.n)
    (hf : s'.log.filter isDeleted = s.log.filter isDeleted) (hm : Act.closed ∈ s'.log ↔ Act.closed ∈ s.log) : InvA s' := by
  refine ⟨?_, ?_, ?_, ?_, ?_, ?_, ?_⟩
  · rw [ht]; exact upd_shape h.shape i v (.inl hv)
  · intro a b ha hb
    rw [ht] at ha hb
    exact h.one a b (upd_eq_del hv.ne ha).1 (upd_eq_del hv.ne hb).1
  · intro a ha; rw [ht] at ha; rw [hc, hf]; exact h.pend a (upd_eq_del hv.ne ha).1
  · rw [hc, hf]; exact h.calm
  · rw [hf]; exact h.le
  · rw [hc, hm]; exact h.flag
  · intro a ha; rw [hn] at ha; rw [ht]; unfold upd; split
    · rename_i e; subst e; exact absurd (h.idle a ha) hne
    · exact h.idle a ha

theorem program_shape (h : Handler) : Plain (program h) ∨ program h = [.cas, .del] ∨ program h = [.del] := by
  cases h <;> simp [program, Plain]

theorem program_ne_del (h : Handler) : program h ≠ [.del] := by cases h <;> simp [program]

theorem A_step {s : St} (h : InvA s) (e : Ev) : InvA (step s e) := by
  cases e with
  | start hd =>
    refine ⟨upd_shape h.shape _ _ (program_shape hd), ?_, ?_, h.calm, h.le, h.flag, ?_⟩
    · intro a b ha hb
      exact h.one a b (upd_eq_del (program_ne_del hd) ha).1 (upd_eq_del (program_ne_del hd) hb).1
    · intro a ha; exact h.pend a (upd_eq_del (program_ne_del hd) ha).1
    · intro a ha
      have ha' : s.n + 1 ≤ a := ha
      show upd s.th s.n (program hd) a = []
      unfold upd; rw [if_neg (by omega)]; exact h.idle a (by omega)
  | quit i =>
    have hs := h.shape i
    cases hl : s.th i with
    | nil =>
      have he : step s (.quit i) = { s with th := upd s.th i [] } := by simp only [step, hl]
      have hu : upd s.th i [] = s.th := by funext x; unfold upd; split
                                           · rename_i e; rw [e, hl]
                                           · rfl
      rw [he, hu]; exact h
    | cons o rest =>
      cases o with
      | cas => simpa only [step, hl] using h
      | del => simpa only [step, hl] using h
      | _ =>
        simp only [step, hl]
        refine A_plain h i [] ?_ plain_nil (by rw [hl]; simp) rfl rfl rfl rfl Iff.rfl
        rcases hs with hs | hs | hs
        · exact hs
        · rw [hl] at hs; simp at hs
        · rw [hl] at hs; simp at hs
  | fire n =>
    simp only [step]
    split
    · refine ⟨h.shape, h.one, ?_, ?_, ?_, ?_, h.idle⟩
      · intro i hi; exact ⟨(h.pend i hi).1, by rw [filter_cons_of rfl]; exact (h.pend i hi).2⟩
      · intro hc; dsimp only; rw [filter_cons_of rfl]; exact h.calm hc
      · dsimp only; rw [filter_cons_of rfl]; exact h.le
      · dsimp only; rw [h.flag]; simp
    · exact h
  | run i ok =>
    simp only [step]
    have hs := h.shape i
    cases hl : s.th i with
    | nil => exact h
    | cons o rest =>
      dsimp only
      have hne : s.th i ≠ [] := by rw [hl]; simp
      rcases hs with hs | hs | hs
      · have hr : Plain rest := Plain.tail (hl ▸ hs)
        cases o with
        | enterOffer =>
          simp only [exec]; split
          · exact A_plain h i _ hs (by simp [Plain]) hne rfl rfl rfl rfl Iff.rfl
          · exact A_plain h i _ hs (by simp [Plain]) hne rfl rfl rfl rfl Iff.rfl
        | enterAnswer => exact A_plain h i _ hs (by simp [Plain]) hne rfl rfl rfl rfl Iff.rfl
        | create =>
          refine A_plain h i _ hs ?_ hne rfl rfl rfl (filter_cons_of rfl) (by simp [exec])
          cases ok
          · exact plain_nil
          · exact hr
        | use =>
          simp only [exec]
          cases s.conn with
          | none => exact A_plain h i _ hs plain_nil hne rfl rfl rfl rfl Iff.rfl
          | some n => exact A_plain h i _ hs hr hne rfl rfl rfl (filter_cons_of rfl) (by simp)
        | channel =>
          simp only [exec]
          cases s.conn with
          | none => exact A_plain h i _ hs plain_nil hne rfl rfl rfl rfl Iff.rfl
          | some n => exact A_plain h i _ hs hr hne rfl rfl rfl (filter_cons_of rfl) (by simp)
        | await =>
          simp only [exec]
          by_cases h1 : s.signalled = true
          · rw [if_pos h1]; exact A_plain h i _ hs hr hne rfl rfl rfl rfl Iff.rfl
          · rw [if_neg h1]
            by_cases h2 : s.closing = true
            · rw [if_pos h2]; exact A_plain h i _ hs plain_nil hne rfl rfl rfl rfl Iff.rfl
            · rw [if_neg h2]; exact h
        | cas => rw [hl] at hs; simp [Plain] at hs
        | del => rw [hl] at hs; simp [Plain] at hs
      · rw [hl] at hs
        obtain ⟨rfl, rfl⟩ : o = .cas ∧ rest = [.del] := by simpa using hs
        simp only [exec]
        by_cases hc : s.closing = true
        · rw [if_pos hc]
          refine ⟨upd_shape h.shape i _ (.inl plain_nil), ?_, ?_, h.calm, h.le, h.flag, ?_⟩
          · intro a b ha hb
            exact h.one a b (upd_eq_del (by simp) ha).1 (upd_eq_del (by simp) hb).1
          · intro a ha; exact h.pend a (upd_eq_del (by simp) ha).1
          · intro a ha; show upd s.th i [] a = []
            unfold upd; split
            · rfl
            · exact h.idle a ha
        · rw [if_neg hc]
          have hc' : s.closing = false := by simpa using hc
          have hno : ∀ j, s.th j = [.del] → False := fun j hj => by
            have := (h.pend j hj).1; rw [hc'] at this; simp at this
          have hd := h.calm hc'
          refine ⟨upd_shape h.shape i _ (.inr (.inr rfl)), ?_, ?_, ?_, ?_, ?_, ?_⟩
          · intro a b ha hb
            have e1 : ∀ x, upd s.th i [.del] x = [.del] → x = i := by
              intro x hx; unfold upd at hx; split at hx
              · assumption
              · exact (hno x hx).elim
            rw [e1 a ha, e1 b hb]
          · intro a ha; exact ⟨rfl, by rw [filter_cons_of rfl]; exact hd⟩
          · intro hx; simp at hx
          · rw [filter_cons_of rfl]; exact h.le
          · simp
          · intro a ha; show upd s.th i [.del] a = []
            unfold upd; split
            · rename_i e; subst e; exact absurd (h.idle a ha) hne
            · exact h.idle a ha
      · have hp := h.pend i hs
        have hi := hs
        rw [hl] at hs
        obtain ⟨rfl, rfl⟩ : o = .del ∧ rest = [] := by simpa using hs
        simp only [exec]
        have hno : ∀ j, upd s.th i [] j = [.del] → False := by
          intro j hj
          obtain ⟨h1, h2⟩ := upd_eq_del (by simp) hj
          exact h2 (h.one j i h1 hi)
        have hid : ∀ a, s.n ≤ a → upd s.th i [] a = [] := by
          intro a ha; unfold upd; split
          · rfl
          · exact h.idle a ha
        cases s.conn with
        | none =>
          exact ⟨upd_shape h.shape i _ (.inl plain_nil), fun a b ha _ => (hno a ha).elim, fun a ha => (hno a ha).elim,
            h.calm, h.le, h.flag, hid⟩
        | some n =>
          refine ⟨upd_shape h.shape i _ (.inl plain_nil), fun a b ha _ => (hno a ha).elim, fun a ha => (hno a ha).elim,
            ?_, ?_, ?_, hid⟩
          · intro hx; dsimp only at hx; rw [hp.1] at hx; simp at hx
          · dsimp only; rw [List.filter_cons, hp.2]; simp [isDeleted]
          · dsimp only; rw [h.flag]; simp

theorem run_ind (P : St → Prop) (h0 : P {}) (hs : ∀ s e, P s → P (step s e)) (es : List Ev) : P (run es) := by
  suffices h : ∀ s, P s → P (es.foldl step s) from h {} h0
  induction es with
  | nil => exact fun s h => h
  | cons e es ih => exact fun s h => ih _ (hs s e h)

theorem A_init : InvA {} :=
  ⟨fun i => .inl plain_nil, by simp, by simp, by simp, by simp, by simp, by simp⟩

theorem A_run (es : List Ev) : InvA (run es) := run_ind InvA A_init (fun _ e h => A_step h e) es

theorem B_init : InvB {} := ⟨by simp, by simp, by simp, by simp, by simp⟩

theorem B_step {s : St} (h : InvB s) (e : Ev) : InvB (step s e) := by
  cases e with
  | start hd => exact ⟨h.num, h.cur, h.lone, h.delm, h.chan⟩
  | quit i =>
    simp only [step]
    split
    · exact h
    · exact h
    · exact ⟨h.num, h.cur, h.lone, h.delm, h.chan⟩
  | fire n =>
    simp only [step]
    split
    · rename_i hc
      refine ⟨?_, ?_, h.lone, ?_, ?_⟩
      · intro m ok hm; exact h.num m ok (by simpa using hm)
      · intro m hm; obtain ⟨ok, h1⟩ := h.cur m hm; exact ⟨ok, List.mem_cons_of_mem _ h1⟩
      · intro m hm; obtain ⟨ok, h1⟩ := h.delm m (by simpa using hm); exact ⟨ok, List.mem_cons_of_mem _ h1⟩
      · intro m hm
        rcases List.mem_cons.mp hm with hm | hm
        · cases hm; exact List.mem_cons_of_mem _ hc.1
        · exact List.mem_cons_of_mem _ (h.chan m hm)
    · exact h
  | run i ok =>
    simp only [step]
    cases hl : s.th i with
    | nil => exact h
    | cons o rest =>
      dsimp only
      cases o with
      | enterOffer => simp only [exec]; split <;> exact ⟨h.num, h.cur, h.lone, h.delm, h.chan⟩
      | enterAnswer => exact ⟨h.num, h.cur, h.lone, h.delm, h.chan⟩
      | create =>
        refine ⟨?_, ?_, ?_, ?_, ?_⟩
        · intro m o hm
          simp only [exec, List.mem_cons] at hm ⊢
          rcases hm with hm | hm
          · cases hm; omega
          · have := h.num m o hm; omega
        · intro m hm
          simp only [exec, Option.some.injEq] at hm
          subst hm; exact ⟨ok, List.mem_cons_self⟩
        · intro hx; simp [exec] at hx
        · intro m hm
          obtain ⟨o, h1⟩ := h.delm m (by simpa [exec] using hm); exact ⟨o, List.mem_cons_of_mem _ h1⟩
        · intro m hm; exact List.mem_cons_of_mem _ (h.chan m (by simpa [exec] using hm))
      | use =>
        simp only [exec]
        split
        · exact ⟨h.num, h.cur, h.lone, h.delm, h.chan⟩
        · rename_i n hc
          refine ⟨?_, ?_, h.lone, ?_, ?_⟩
          · intro m o hm; exact h.num m o (by simpa using hm)
          · intro m hm; obtain ⟨o, h1⟩ := h.cur m hm; exact ⟨o, List.mem_cons_of_mem _ h1⟩
          · intro m hm; obtain ⟨o, h1⟩ := h.delm m (by simpa using hm); exact ⟨o, List.mem_cons_of_mem _ h1⟩
          · intro m hm; exact List.mem_cons_of_mem _ (h.chan m (by simpa using hm))
      | channel =>
        simp only [exec]
        split
        · exact ⟨h.num, h.cur, h.lone, h.delm, h.chan⟩
        · rename_i n hc
          refine ⟨?_, ?_, h.lone, ?_, ?_⟩
          · intro m o hm; exact h.num m o (by simpa using hm)
          · intro m hm; obtain ⟨o, h1⟩ := h.cur m hm; exact ⟨o, List.mem_cons_of_mem _ h1⟩
          · intro m hm; obtain ⟨o, h1⟩ := h.delm m (by simpa using hm); exact ⟨o, List.mem_cons_of_mem _ h1⟩
          · intro m hm; exact List.mem_cons_of_mem _ (h.chan m (by simpa using hm))
      | await =>
        simp only [exec]
        split
        · exact ⟨h.num, h.cur, h.lone, h.delm, h.chan⟩
        · split
          · exact ⟨h.num, h.cur, h.lone, h.delm, h.chan⟩
          · exact h
      | cas =>
        simp only [exec]
        split
        · exact ⟨h.num, h.cur, h.lone, h.delm, h.chan⟩
        · refine ⟨?_, ?_, h.lone, ?_, ?_⟩
          · intro m o hm; exact h.num m o (by simpa using hm)
          · intro m hm; obtain ⟨o, h1⟩ := h.cur m hm; exact ⟨o, List.mem_cons_of_mem _ h1⟩
          · intro m hm; obtain ⟨o, h1⟩ := h.delm m (by simpa using hm); exact ⟨o, List.mem_cons_of_mem _ h1⟩
          · intro m hm; exact List.mem_cons_of_mem _ (h.chan m (by simpa using hm))
      | del =>
        simp only [exec]
        split
        · exact ⟨h.num, h.cur, h.lone, h.delm, h.chan⟩
        · rename_i n hc
          refine ⟨?_, ?_, h.lone, ?_, ?_⟩
          · intro m o hm; exact h.num m o (by simpa using hm)
          · intro m hm; obtain ⟨o, h1⟩ := h.cur m hm; exact ⟨o, List.mem_cons_of_mem _ h1⟩
          · intro m hm
            rcases List.mem_cons.mp hm with hm | hm
            · cases hm; obtain ⟨o, h1⟩ := h.cur n hc; exact ⟨o, List.mem_cons_of_mem _ h1⟩
            · obtain ⟨o, h1⟩ := h.delm m hm; exact ⟨o, List.mem_cons_of_mem _ h1⟩
          · intro m hm; exact List.mem_cons_of_mem _ (h.chan m (by simpa using hm))

theorem B_run (es : List Ev) : InvB (run es) := run_ind InvB B_init (fun _ e h => B_step h e) es

/-! ## Soundness under good behaviour -/

/-- The hypotheses of the positive theorems. -/
structure Good (log : List Act) : Prop where
  /-- the library accepted every object -/
  accepted : ∀ n ok, Act.made n ok ∈ log → ok = true
  /-- only one object got a channel (one `get-offer` request) -/
  single : ∀ m n, Act.channel m ∈ log → Act.channel n ∈ log → m = n
  /-- nothing is made or used after the decision to close -/
  quiet : Quiet log

theorem Good.tail {a : Act} {l : List Act} (h : Good (a :: l)) : Good l := by
  refine ⟨fun n ok hm => h.accepted n ok (List.mem_cons_of_mem _ hm),
    fun m n hm hn => h.single m n (List.mem_cons_of_mem _ hm) (List.mem_cons_of_mem _ hn), ?_⟩
  have hq := h.quiet
  cases a <;> simp only [Quiet] at hq <;> first | exact hq | exact hq.2

theorem mem_filter_nil {l : List Act} (h : l.filter isDeleted = []) (n : Nat) : Act.deleted n ∉ l := by
  intro hm
  have : Act.deleted n ∈ l.filter isDeleted := List.mem_filter.mpr ⟨hm, rfl⟩
  rw [h] at this; simp at this

theorem sound_step {s : St} (a : InvA s) (b : InvB s) (ih : Good s.log → Sound s.log) (e : Ev) :
    Good (step s e).log → Sound (step s e).log := by
  cases e with
  | start hd => exact ih
  | quit i => simp only [step]; split <;> exact ih
  | fire n =>
    simp only [step]
    split
    · rename_i hc
      intro g
      refine ⟨?_, ih g.tail⟩
      intro m hm
      have := g.tail.single m n (b.chan m hm) hc.1
      subst this; exact hc.2.1 hm
    · exact ih
  | run i ok =>
    simp only [step]
    have hs := a.shape i
    cases hl : s.th i with
    | nil => exact ih
    | cons o rest =>
      dsimp only
      cases o with
      | enterOffer => simp only [exec]; split <;> exact ih
      | enterAnswer => exact ih
      | create => intro g; exact ih g.tail
      | use =>
        simp only [exec]
        split
        · exact ih
        · rename_i n hc
          intro g
          obtain ⟨o, h1⟩ := b.cur n hc
          have := g.tail.accepted n o h1; subst this
          refine ⟨⟨h1, ?_⟩, ih g.tail⟩
          have hq : Act.closed ∉ s.log := g.quiet.1
          exact mem_filter_nil (a.calm (by cases hcl : s.closing; rfl; exact absurd (a.flag.mp hcl) hq)) n
      | channel =>
        simp only [exec]
        split
        · exact ih
        · rename_i n hc
          intro g
          obtain ⟨o, h1⟩ := b.cur n hc
          have := g.tail.accepted n o h1; subst this
          refine ⟨⟨h1, ?_⟩, ih g.tail⟩
          have hq : Act.closed ∉ s.log := g.quiet.1
          exact mem_filter_nil (a.calm (by cases hcl : s.closing; rfl; exact absurd (a.flag.mp hcl) hq)) n
      | await => simp only [exec]; split; exact ih; split <;> exact ih
      | cas => simp only [exec]; split; exact ih; intro g; exact ih g.tail
      | del =>
        simp only [exec]
        split
        · exact ih
        · rename_i n hc
          intro g
          obtain ⟨o, h1⟩ := b.cur n hc
          have := g.tail.accepted n o h1; subst this
          refine ⟨⟨h1, ?_⟩, ih g.tail⟩
          refine mem_filter_nil (a.pend i ?_).2 n
          rcases hs with hs | hs | hs
          · rw [hl] at hs; simp [Plain] at hs
          · rw [hl] at hs; simp at hs
          · exact hs

/-- **C147** (partial): if the library accepts the configuration, one offer is asked for and no request is being served when the
session closes, nothing is asked of an object that is not there, in whatever order the threads run. Missing: each of the three
conditions can fail, below. -/
theorem sound_partial (es : List Ev) (g : Good (run es).log) : Sound (run es).log :=
  (run_ind (fun s => InvA s ∧ InvB s ∧ (Good s.log → Sound s.log)) ⟨A_init, B_init, fun _ => trivial⟩
    (fun _ e h => ⟨A_step h.1 e, B_step h.2.1 e, sound_step h.1 h.2.1 h.2.2 e⟩) es).2.2 g

/-- **C147**: whatever closes the session and how often, objects are released at most once. -/
theorem released_once (es : List Ev) : ((run es).log.filter isDeleted).length ≤ 1 := (A_run es).le

/-- **C147**: nothing is released before the decision to close. -/
theorem released_after_closing (es : List Ev) (n : Nat) (h : Act.deleted n ∈ (run es).log) : Act.closed ∈ (run es).log := by
  have a := A_run es
  cases hc : (run es).closing with
  | true => exact a.flag.mp hc
  | false => exact absurd h (mem_filter_nil (a.calm hc) n)

/-- What is released was made. -/
theorem released_was_made (es : List Ev) (n : Nat) (h : Act.deleted n ∈ (run es).log) : ∃ ok, Act.made n ok ∈ (run es).log :=
  (B_run es).delm n h

/-! ## What is left -/

structure InvC (s : St) : Prop where
  done : s.closing = true → Quiet s.log → (∃ i, s.th i = [.del]) ∨ (∃ m, Act.deleted m ∈ s.log) ∨ s.made = 0
  nums : s.log.filterMap madeNum = (List.range s.made).reverse
  newest : ∀ m ok, s.log.find? isMade = some (.made m ok) → s.conn = some m
  uniq : ∀ m p q, Act.made m p ∈ s.log → Act.made m q ∈ s.log → p = q

theorem C_init : InvC {} := ⟨by simp, by simp, by simp, by simp⟩

theorem Quiet.tail {a : Act} {l : List Act} (h : Quiet (a :: l)) : Quiet l := by
  cases a <;> simp only [Quiet] at h <;> first | exact h | exact h.2

theorem pend_keep {s : St} {i : Nat} {v : List Op} (hi : s.th i ≠ [.del]) (h : ∃ j, s.th j = [.del]) :
    ∃ j, upd s.th i v j = [.del] := by
  obtain ⟨j, hj⟩ := h
  refine ⟨j, ?_⟩
  unfold upd; rw [if_neg]; exact hj
  rintro rfl; exact hi hj

/-- A step of a thread that has nothing to release. -/
theorem C_plain {s s' : St} (h : InvC s) (i : Nat) (v : List Op) (hi : s.th i ≠ [.del]) (ht : s'.th = upd s.th i v)
    (hc : s'.closing = s.closing) (hm : s'.made = s.made) (hco : s'.conn = s.conn)
    (hl : s'.log = s.log ∨ ∃ a, s'.log = a :: s.log ∧ isMade a = false ∧ madeNum a = none) : InvC s' := by
  rcases hl with hl | ⟨a, hl, h1, h2⟩
  · refine ⟨?_, by rw [hl, hm]; exact h.nums, by rw [hl, hco]; exact h.newest, by rw [hl]; exact h.uniq⟩
    rw [hl, hc, hm, ht]
    intro x y
    rcases h.done x y with d | d | d
    · exact .inl (pend_keep hi d)
    · exact .inr (.inl d)
    · exact .inr (.inr d)
  · refine ⟨?_, ?_, ?_, ?_⟩
    · rw [hl, hc, hm, ht]
      intro x y
      rcases h.done x y.tail with d | ⟨m, d⟩ | d
      · exact .inl (pend_keep hi d)
      · exact .inr (.inl ⟨m, List.mem_cons_of_mem _ d⟩)
      · exact .inr (.inr d)
    · rw [hl, hm, List.filterMap_cons, h2]; exact h.nums
    · rw [hl, hco]; intro m ok hx; rw [List.find?_cons, h1] at hx; exact h.newest m ok hx
    · rw [hl]
      intro m p q hp hq
      have hne : ∀ o, Act.made m o ∈ a :: s.log → Act.made m o ∈ s.log := by
        intro o ho
        rcases List.mem_cons.mp ho with ho | ho
        · subst ho; simp [isMade] at h1
        · exact ho
      exact h.uniq m p q (hne p hp) (hne q hq)

theorem C_step {s : St} (a : InvA s) (b : InvB s) (h : InvC s) (e : Ev) : InvC (step s e) := by
  cases e with
  | start hd =>
    refine C_plain (s' := step s (.start hd)) h s.n (program hd) ?_ rfl rfl rfl rfl (.inl rfl)
    rw [a.idle s.n (Nat.le_refl _)]; simp
  | quit i =>
    simp only [step]
    split
    · exact h
    · exact h
    · rename_i h1 h2
      refine C_plain h i [] ?_ rfl rfl rfl rfl (.inl rfl)
      intro hx; exact h2 _ hx
  | fire n =>
    simp only [step]
    split
    · refine ⟨?_, by simpa [madeNum, List.filterMap_cons] using h.nums, by simpa [isMade] using h.newest, by simpa using h.uniq⟩
      intro x y
      rcases h.done x y.tail with d | ⟨m, d⟩ | d
      · exact .inl d
      · exact .inr (.inl ⟨m, List.mem_cons_of_mem _ d⟩)
      · exact .inr (.inr d)
    · exact h
  | run i ok =>
    simp only [step]
    cases hl : s.th i with
    | nil => exact h
    | cons o rest =>
      dsimp only
      have hne : o ≠ .del → s.th i ≠ [.del] := by
        intro ho hx; rw [hl] at hx; simp at hx; exact ho hx.1
      cases o with
      | enterOffer =>
        simp only [exec]; split <;> exact C_plain h i _ (hne (by simp)) rfl rfl rfl rfl (.inl rfl)
      | enterAnswer => exact C_plain h i _ (hne (by simp)) rfl rfl rfl rfl (.inl rfl)
      | create =>
        refine ⟨?_, ?_, ?_, ?_⟩
        · intro x y
          simp only [exec] at x y
          exact absurd (a.flag.mp x) y.1
        · simp only [exec, List.filterMap_cons, madeNum, h.nums, List.range_succ, List.reverse_append,
            List.reverse_cons, List.reverse_nil, List.nil_append, List.singleton_append]
        · intro m o hx
          simp only [exec, List.find?_cons, isMade] at hx ⊢
          simp at hx; rw [hx.1]
        · intro m p q hp hq
          simp only [exec, List.mem_cons, Act.made.injEq] at hp hq
          rcases hp with ⟨rfl, rfl⟩ | hp
          · rcases hq with ⟨_, rfl⟩ | hq
            · rfl
            · have := b.num _ _ hq; omega
          · rcases hq with ⟨rfl, rfl⟩ | hq
            · have := b.num _ _ hp; omega
            · exact h.uniq m p q hp hq
      | use =>
        simp only [exec]
        split
        · exact C_plain h i _ (hne (by simp)) rfl rfl rfl rfl (.inl rfl)
        · exact C_plain h i _ (hne (by simp)) rfl rfl rfl rfl (.inr ⟨_, rfl, rfl, rfl⟩)
      | channel =>
        simp only [exec]
        split
        · exact C_plain h i _ (hne (by simp)) rfl rfl rfl rfl (.inl rfl)
        · exact C_plain h i _ (hne (by simp)) rfl rfl rfl rfl (.inr ⟨_, rfl, rfl, rfl⟩)
      | await =>
        simp only [exec]
        split
        · exact C_plain h i _ (hne (by simp)) rfl rfl rfl rfl (.inl rfl)
        · split
          · exact C_plain h i _ (hne (by simp)) rfl rfl rfl rfl (.inl rfl)
          · exact h
      | cas =>
        simp only [exec]
        split
        · exact C_plain h i _ (hne (by simp)) rfl rfl rfl rfl (.inl rfl)
        · refine ⟨?_, by simpa [madeNum, List.filterMap_cons] using h.nums, by simpa [isMade] using h.newest, by simpa using h.uniq⟩
          intro _ _
          left
          refine ⟨i, ?_⟩
          have : rest = [.del] := by
            rcases a.shape i with hs | hs | hs
            · rw [hl] at hs; simp [Plain] at hs
            · rw [hl] at hs; simpa using hs
            · rw [hl] at hs; simp at hs
          show upd s.th i rest i = _
          unfold upd; rw [if_pos rfl, this]
      | del =>
        simp only [exec]
        split
        · rename_i hc
          refine ⟨?_, h.nums, ?_, h.uniq⟩
          · intro _ _; right; right; exact b.lone hc
          · intro m o hx; exact h.newest m o hx
        · rename_i n hc
          refine ⟨?_, by simpa [madeNum, List.filterMap_cons] using h.nums, by simpa [isMade] using h.newest, by simpa using h.uniq⟩
          intro _ _; right; left; exact ⟨n, List.mem_cons_self⟩

theorem all_run (es : List Ev) : InvA (run es) ∧ InvB (run es) ∧ InvC (run es) :=
  run_ind (fun s => InvA s ∧ InvB s ∧ InvC s) ⟨A_init, B_init, C_init⟩
    (fun _ e h => ⟨A_step h.1 e, B_step h.2.1 e, C_step h.1 h.2.1 h.2.2 e⟩) es

/-- **C147** (partial): once the session is closed and every thread is done, the only object of the session has been released.
Missing: a session may make several objects; only one is ever released (`all_but_one_left`). -/
theorem nothing_left_partial (es : List Ev) (n : Nat) (ok : Bool) (hd : ∀ i, (run es).th i = []) (hc : Act.closed ∈ (run es).log)
    (hq : Quiet (run es).log) (hm : Act.made n ok ∈ (run es).log) (ho : ∀ m p, Act.made m p ∈ (run es).log → m = n) :
    Act.deleted n ∈ (run es).log := by
  obtain ⟨a, b, c⟩ := all_run es
  rcases c.done (a.flag.mpr hc) hq with ⟨i, hi⟩ | ⟨m, hi⟩ | h0
  · rw [hd i] at hi; simp at hi
  · obtain ⟨p, hp⟩ := b.delm m hi
    rw [← ho m p hp]; exact hi
  · have := b.num n ok hm; omega

/-! ## What goes wrong -/

theorem run_append (es fs : List Ev) : run (es ++ fs) = fs.foldl step (run es) := by
  simp [run, List.foldl_append]

theorem close_steps (es : List Ev) (n : Nat) (hc : Act.closed ∉ (run es).log) (hconn : (run es).conn = some n) :
    let s := run (es ++ [.start .close, .run (run es).n true, .run (run es).n true])
    s.log = .deleted n :: .closed :: (run es).log ∧ s.conn = some n ∧
      ∀ j, j ≠ (run es).n → s.th j = (run es).th j := by
  have a := A_run es
  have hcl : (run es).closing = false := by
    cases h : (run es).closing
    · rfl
    · exact absurd (a.flag.mp h) hc
  simp only [run_append, List.foldl_cons, List.foldl_nil]
  generalize run es = s at *
  simp only [step, program, upd, if_pos, exec, hcl, hconn, Bool.false_eq_true, if_false]
  refine ⟨trivial, trivial, ?_⟩
  intro j hj
  simp [hj]

/-- **C147 is false**: if the library refused the last object of a session (an address of a STUN server that it can not parse), the
client dies when the session is closed, whatever happened before - and every session is closed after two minutes. -/
theorem refused_object_is_fatal (es : List Ev) (n : Nat) (hl : (run es).log.find? isMade = some (.made n false))
    (hc : Act.closed ∉ (run es).log) :
    ¬ Sound (run (es ++ [.start .close, .run (run es).n true, .run (run es).n true])).log := by
  obtain ⟨a, b, c⟩ := all_run es
  rw [(close_steps es n hc (c.newest n false hl)).1]
  intro hs
  have hu := hs.1.1
  have hm : Act.made n true ∈ (run es).log := by simpa using hu
  have hf : Act.made n false ∈ (run es).log := List.mem_of_find?_eq_some hl
  have := c.uniq n _ _ hm hf
  simp at this

/-- **C147 is false**: closing a session does not wait for the requests that are being served, nor does it forget the object: the
next call of such a request uses released memory. -/
theorem use_after_release (es : List Ev) (i n : Nat) (ok : Bool) (rest : List Op) (hl : (run es).log.find? isMade = some (.made n ok))
    (hc : Act.closed ∉ (run es).log) (hi : (run es).th i = .use :: rest) :
    ¬ Sound (run (es ++ [.start .close, .run (run es).n true, .run (run es).n true] ++ [.run i true])).log := by
  obtain ⟨a, b, c⟩ := all_run es
  obtain ⟨h1, h2, h3⟩ := close_steps es n hc (c.newest n ok hl)
  have hne : i ≠ (run es).n := by
    rintro rfl; rw [a.idle _ (Nat.le_refl _)] at hi; simp at hi
  rw [run_append (es ++ _)]
  simp only [List.foldl_cons, List.foldl_nil, step, h3 i hne, hi, exec, h2, h1]
  intro hs
  have := hs.1.2
  simp at this

/-- **C147 is false**: if the library reports for two objects of a session that they need negotiation, the client dies: it closes a
closed channel on the library's thread. -/
theorem second_report_is_fatal (es : List Ev) (m n : Nat) (hm : Act.fired m ∈ (run es).log) (hch : Act.channel n ∈ (run es).log)
    (hf : Act.fired n ∉ (run es).log) (hd : Act.deleted n ∉ (run es).log) : ¬ Sound (run (es ++ [.fire n])).log := by
  rw [run_snoc]
  simp only [step]
  rw [if_pos ⟨hch, hf, hd⟩]
  intro hs
  exact hs.1 m hm

/-- Two `get-offer` requests on one session are enough. -/
theorem two_get_offers_fatal :
    ¬ Sound (run [.start .getOffer, .run 0 true, .run 0 true, .fire 0, .run 0 true, .run 0 true, .run 0 true, .run 0 true,
      .start .getOffer, .run 1 true, .run 1 true, .fire 1]).log := by
  have h : (run [.start .getOffer, .run 0 true, .run 0 true, .fire 0, .run 0 true, .run 0 true, .run 0 true, .run 0 true,
      .start .getOffer, .run 1 true, .run 1 true, .fire 1]).log =
      [.fired 1, .channel 1, .made 1 true, .used 0, .used 0, .used 0, .fired 0, .channel 0, .made 0 true] := by decide
  rw [h]
  intro hs
  exact hs.1 0 (by simp)

theorem filter_ne_length (k d : Nat) : k ≤ ((List.range k).filter (fun n => n != d)).length + 1 ∧
    (k ≤ d → ((List.range k).filter (fun n => n != d)).length = k) := by
  induction k with
  | zero => simp
  | succ k ih =>
    rw [List.range_succ, List.filter_append, List.length_append]
    by_cases h : k = d
    · subst h; have := ih.2 (Nat.le_refl _); simp; omega
    · have : ([k].filter (fun n => n != d)).length = 1 := by simp [h]
      rw [this]; constructor
      · omega
      · intro hk; have := ih.2 (by omega); omega

/-- **C147 is false**: of the objects a session makes, all but one are never released. -/
theorem all_but_one_left (es : List Ev) : ((run es).log.filter isMade).length ≤ (left (run es).log).length + 1 := by
  obtain ⟨a, b, c⟩ := all_run es
  have e1 : ∀ l : List Act, (l.filter isMade).length = (l.filterMap madeNum).length := by
    intro l; induction l with
    | nil => rfl
    | cons x l ih => cases x <;> simp [isMade, madeNum, List.filter_cons, List.filterMap_cons, ih]
  rw [e1]
  have hle := a.le
  unfold left
  rw [c.nums]
  have hcase : (∀ n, Act.deleted n ∉ (run es).log) ∨ ∃ d, ∀ n, Act.deleted n ∈ (run es).log → n = d := by
    cases hf : (run es).log.filter isDeleted with
    | nil => exact .inl (mem_filter_nil hf)
    | cons x xs =>
      rw [hf] at hle
      have hx : xs = [] := by
        cases xs with
        | nil => rfl
        | cons y ys => simp at hle
      right
      have hk : ∀ n, Act.deleted n ∈ (run es).log → Act.deleted n = x := by
        intro n hn
        have : Act.deleted n ∈ (run es).log.filter isDeleted := List.mem_filter.mpr ⟨hn, rfl⟩
        rw [hf, hx] at this; simpa using this
      cases x with
      | deleted d => exact ⟨d, fun n hn => by have := hk n hn; simpa using this⟩
      | _ => exact ⟨0, fun n hn => by have := hk n hn; simp at this⟩
  rw [List.length_reverse, List.length_range, List.filter_reverse, List.length_reverse]
  rcases hcase with h | ⟨d, h⟩
  · rw [List.filter_eq_self.mpr]
    · simp
    · intro n _; simp [h n]
  · have h1 := (filter_ne_length (run es).made d).1
    have h2 : ((List.range (run es).made).filter (fun n => n != d)).length ≤
        ((List.range (run es).made).filter (fun n => !(run es).log.contains (.deleted n))).length := by
      rw [← List.countP_eq_length_filter, ← List.countP_eq_length_filter]
      apply List.countP_mono_left
      intro n _ hn
      simp only [bne_iff_ne, ne_eq] at hn
      simp only [Bool.not_eq_true', List.contains_eq_mem, decide_eq_false_iff_not]
      exact fun hx => hn (h n hx)
    omega

/-- And every `get-offer` request makes one more. -/
theorem get_offer_makes_another (es : List Ev) :
    ((run (es ++ [.start .getOffer, .run (run es).n true])).log.filter isMade).length = ((run es).log.filter isMade).length + 1 := by
  simp only [run_append, List.foldl_cons, List.foldl_nil]
  generalize run es = s at *
  simp [step, program, upd, exec, isMade, List.filter_cons]

/-- An offer, served, then two reasons to close: sound, and nothing is left. -/
def calmRun : List Ev :=
  [.start .offer, .run 0 true, .run 0 true, .run 0 true, .run 0 true, .run 0 true, .run 0 true, .start .answer, .run 1 true, .run 1 true,
   .start .close, .start .close, .run 3 true, .run 2 true, .run 3 true, .run 2 true]

example : (run calmRun).log = [.deleted 0, .closed, .used 0, .used 0, .used 0, .used 0, .used 0, .made 0 true] := by decide
example : Good (run calmRun).log := by
  have h : (run calmRun).log = [.deleted 0, .closed, .used 0, .used 0, .used 0, .used 0, .used 0, .made 0 true] := by decide
  rw [h]
  refine ⟨?_, ?_, ?_⟩
  · intro n ok hm; simp at hm; exact hm.2
  · intro m n hm; simp at hm
  · simp [Quiet]
example : left (run calmRun).log = [] := by decide
example : (run [.start .offer, .run 0 true, .run 0 false]).log.find? isMade = some (.made 0 false) := by decide
example : (run [.start .offer, .run 0 true, .run 0 true]).th 0 = [.use, .use, .use, .use] := by decide
/-- A request for an offer, then an offer, then the end: one object stays. -/
theorem one_left : left (run [.start .getOffer, .run 0 true, .run 0 true, .fire 0, .run 0 true, .run 0 true, .run 0 true, .run 0 true,
    .start .offer, .run 1 true, .run 1 true, .start .close, .run 2 true, .run 2 true]).log = [0] := by decide

/-! ## Offers only -/

/-- As long as nobody asks the session for an offer. -/
structure InvD (s : St) : Prop where
  len : (s.log.filter isMade).length = s.made
  has : ∀ i, Op.create ∈ s.th i → s.initDone = true ∧ s.made = 0
  one : ∀ i j, Op.create ∈ s.th i → Op.create ∈ s.th j → i = j
  le : s.made ≤ 1
  new : s.initDone = false → s.made = 0
  head : ∀ i o rest, s.th i = o :: rest → Op.create ∉ rest

theorem mem_upd {f : Nat → List Op} {i j : Nat} {v : List Op} (hv : Op.create ∉ v) (h : Op.create ∈ upd f i v j) :
    Op.create ∈ f j := by
  unfold upd at h; split at h
  · exact absurd h hv
  · exact h

/-- A step that makes nothing and leaves nothing to make. -/
theorem D_plain {s s' : St} (h : InvD s) (i : Nat) (v : List Op) (hv : Op.create ∉ v) (ht : s'.th = upd s.th i v)
    (hm : s'.made = s.made) (hd : s.initDone = true → s'.initDone = true)
    (hl : (s'.log.filter isMade).length = (s.log.filter isMade).length) : InvD s' := by
  refine ⟨by rw [hl, hm]; exact h.len, ?_, ?_, by rw [hm]; exact h.le, ?_, ?_⟩
  · intro j hj
    rw [ht] at hj
    have := h.has j (mem_upd hv hj)
    exact ⟨hd this.1, by rw [hm]; exact this.2⟩
  · intro a b ha hb
    rw [ht] at ha hb
    exact h.one a b (mem_upd hv ha) (mem_upd hv hb)
  · intro hf
    rw [hm]
    refine h.new ?_
    cases hx : s.initDone with
    | false => rfl
    | true => rw [hd hx] at hf; cases hf
  · intro j o rest hj hc
    rw [ht] at hj
    unfold upd at hj
    split at hj
    · rw [hj] at hv; exact hv (List.mem_cons_of_mem _ hc)
    · exact h.head j o rest hj hc

theorem D_step {s : St} (h : InvD s) (e : Ev) (he : e ≠ .start .getOffer) : InvD (step s e) := by
  cases e with
  | start hd =>
    refine D_plain h s.n (program hd) ?_ rfl rfl id rfl
    cases hd with
    | getOffer => exact absurd rfl he
    | offer => simp [program]
    | answer => simp [program]
    | close => simp [program]
  | quit i =>
    simp only [step]
    split
    · exact h
    · exact h
    · exact D_plain h i [] (by simp) rfl rfl id rfl
  | fire n =>
    simp only [step]
    split
    · exact ⟨by simpa [isMade] using h.len, h.has, h.one, h.le, h.new, h.head⟩
    · exact h
  | run i ok =>
    simp only [step]
    cases hl : s.th i with
    | nil => exact h
    | cons o rest =>
      have hr := h.head i o rest hl
      dsimp only
      cases o with
      | enterOffer =>
        simp only [exec]
        by_cases hi : s.initDone = true
        · rw [if_pos hi]; exact D_plain h i _ (by simp) rfl rfl id rfl
        · rw [if_neg hi]
          have hi : s.initDone = false := by simpa using hi
          have h0 := h.new hi
          have hno : ∀ j, Op.create ∉ s.th j := fun j hj => by
            have := (h.has j hj).1
            rw [hi] at this
            cases this
          refine ⟨h.len, fun _ _ => ⟨rfl, h0⟩, ?_, h.le, fun hx => (by cases hx), ?_⟩
          · have key : ∀ a, Op.create ∈ upd s.th i [.create, .use, .use, .use, .use] a → a = i := by
              intro a ha
              unfold upd at ha
              split at ha
              · assumption
              · exact absurd ha (hno a)
            intro a b ha hb
            rw [key a ha, key b hb]
          · intro j o r hj
            dsimp only at hj
            unfold upd at hj
            split at hj
            · cases hj; simp
            · exact h.head j o r hj
      | enterAnswer => exact D_plain h i _ (by simp) rfl rfl (fun _ => rfl) rfl
      | create =>
        have hmem : Op.create ∈ s.th i := by rw [hl]; exact List.mem_cons_self
        have h0 := h.has i hmem
        have hno : ∀ j, Op.create ∉ upd s.th i (if ok then rest else []) j := by
          intro j hj
          unfold upd at hj
          split at hj
          · cases ok
            · simp at hj
            · exact hr hj
          · rename_i hji
            exact hji (h.one j i hj hmem)
        refine ⟨?_, fun j hj => absurd hj (hno j), fun a _ ha => absurd ha (hno a), ?_, ?_, ?_⟩
        · have := h.len
          simp [exec, List.filter_cons, isMade] at this ⊢
          exact this
        · simp [exec, h0.2]
        · intro hf
          have : s.initDone = false := hf
          rw [h0.1] at this
          cases this
        · intro j o r hj hc
          refine hno j ?_
          have : upd s.th i (if ok then rest else []) j = o :: r := hj
          rw [this]
          exact List.mem_cons_of_mem _ hc
      | use =>
        simp only [exec]
        split
        · exact D_plain h i _ (by simp) rfl rfl id rfl
        · exact D_plain h i _ hr rfl rfl id (by simp [isMade])
      | channel =>
        simp only [exec]
        split
        · exact D_plain h i _ (by simp) rfl rfl id rfl
        · exact D_plain h i _ hr rfl rfl id (by simp [isMade])
      | await =>
        simp only [exec]
        split
        · exact D_plain h i _ hr rfl rfl id rfl
        · split
          · exact D_plain h i _ (by simp) rfl rfl id rfl
          · exact h
      | cas =>
        simp only [exec]
        split
        · exact D_plain h i _ (by simp) rfl rfl id rfl
        · exact D_plain h i _ hr rfl rfl id (by simp [isMade])
      | del =>
        simp only [exec]
        split
        · exact D_plain h i _ hr rfl rfl id rfl
        · exact D_plain h i _ hr rfl rfl id (by simp [isMade])

theorem D_run (es : List Ev) : ∀ s, InvD s → (∀ e ∈ es, e ≠ .start .getOffer) → InvD (es.foldl step s) := by
  induction es with
  | nil => intro s h _; exact h
  | cons e es ih =>
    intro s h he
    exact ih _ (D_step h e (he e List.mem_cons_self)) (fun x hx => he x (List.mem_cons_of_mem _ hx))

/-- **C147**: a session that is only sent offers, answers and candidates — however many, at the same time or one after the other —
makes at most one connection object. -/
theorem one_object (es : List Ev) (he : ∀ e ∈ es, e ≠ .start .getOffer) : ((run es).log.filter isMade).length ≤ 1 := by
  have h := D_run es {} ⟨rfl, by simp, by simp, by simp, by simp, by simp⟩ he
  show ((es.foldl step {}).log.filter isMade).length ≤ 1
  rw [h.len]
  exact h.le

structure InvE (s : St) : Prop where
  done : s.initDone = true
  none : s.conn = none
  noMk : ∀ i, Op.create ∉ s.th i
  log : ∀ a ∈ s.log, a = .closed

theorem E_plain {s s' : St} (h : InvE s) (i : Nat) (v : List Op) (hv : Op.create ∉ v) (ht : s'.th = upd s.th i v)
    (hd : s'.initDone = true) (hc : s'.conn = s.conn) (hl : s'.log = s.log ∨ s'.log = .closed :: s.log) : InvE s' := by
  refine ⟨hd, by rw [hc]; exact h.none, ?_, ?_⟩
  · intro j hj; rw [ht] at hj; exact h.noMk j (mem_upd hv hj)
  · intro a ha
    rcases hl with hl | hl
    · rw [hl] at ha; exact h.log a ha
    · rw [hl] at ha
      rcases List.mem_cons.mp ha with ha | ha
      · exact ha
      · exact h.log a ha

theorem E_step {s : St} (h : InvE s) (e : Ev) (he : e ≠ .start .getOffer) : InvE (step s e) := by
  cases e with
  | start hd =>
    refine E_plain h s.n (program hd) ?_ rfl h.done rfl (.inl rfl)
    cases hd with
    | getOffer => exact absurd rfl he
    | offer => simp [program]
    | answer => simp [program]
    | close => simp [program]
  | quit i =>
    simp only [step]
    split
    · exact h
    · exact h
    · exact E_plain h i [] (by simp) rfl h.done rfl (.inl rfl)
  | fire n =>
    simp only [step]
    rw [if_neg]
    · exact h
    · intro hx
      have := h.log _ hx.1
      cases this
  | run i ok =>
    simp only [step]
    cases hl : s.th i with
    | nil => exact h
    | cons o rest =>
      have hi := h.noMk i
      rw [hl] at hi
      have hr : Op.create ∉ rest := fun hx => hi (List.mem_cons_of_mem _ hx)
      dsimp only
      cases o with
      | enterOffer => simp only [exec]; rw [if_pos h.done]; exact E_plain h i _ (by simp) rfl h.done rfl (.inl rfl)
      | enterAnswer => exact E_plain h i _ (by simp) rfl rfl rfl (.inl rfl)
      | create => exact absurd List.mem_cons_self hi
      | use => simp only [exec]; rw [h.none]; exact E_plain h i _ (by simp) rfl h.done h.none.symm (.inl rfl)
      | channel => simp only [exec]; rw [h.none]; exact E_plain h i _ (by simp) rfl h.done h.none.symm (.inl rfl)
      | await =>
        simp only [exec]
        split
        · exact E_plain h i _ hr rfl h.done rfl (.inl rfl)
        · split
          · exact E_plain h i _ (by simp) rfl h.done rfl (.inl rfl)
          · exact h
      | cas =>
        simp only [exec]
        split
        · exact E_plain h i _ (by simp) rfl h.done rfl (.inl rfl)
        · exact E_plain h i _ hr rfl h.done rfl (.inr rfl)
      | del => simp only [exec]; rw [h.none]; exact E_plain h i _ hr rfl h.done h.none.symm (.inl rfl)

/-- (a remark) A session that gets an answer or a candidate before its offer never serves an offer: the offers that follow are
taken for candidates, no connection object is made and the library is asked for nothing. -/
theorem answer_before_offer (es : List Ev) (ok : Bool) (he : ∀ e ∈ es, e ≠ .start .getOffer) :
    ∀ a ∈ (run (.start .answer :: .run 0 ok :: es)).log, a = .closed := by
  have h : InvE (step (step {} (.start .answer)) (.run 0 ok)) := by
    refine ⟨rfl, rfl, ?_, by simp [step, exec, program, upd]⟩
    intro i
    simp [step, exec, program, upd]
    split <;> simp
  have key : ∀ (es : List Ev) s, InvE s → (∀ e ∈ es, e ≠ .start .getOffer) → InvE (es.foldl step s) := by
    intro es
    induction es with
    | nil => intro s h _; exact h
    | cons e es ih =>
      intro s h he
      exact ih _ (E_step h e (he e List.mem_cons_self)) (fun x hx => he x (List.mem_cons_of_mem _ hx))
  exact (key es _ h he).log

/-- The other order: an offer, then an answer: the object is made and used by both. -/
theorem offer_before_answer :
    (run [.start .offer, .start .answer, .run 0 true, .run 0 true, .run 1 true, .run 1 true, .run 0 true]).log =
      [.used 0, .used 0, .made 0 true] := by decide

end Verif.P2P.Native
