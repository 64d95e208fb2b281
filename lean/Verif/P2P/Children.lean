import Verif.Common
set_option linter.unusedSimpArgs false
set_option linter.unusedVariables false
/-!
# C148: the child processes of P2P sessions (libcs/client/peerproc.go:76-228, 281-306, 370-481)

Without `webrtcThreadMode` every P2P session is served by a child process (`gt sub-p2p`), and the number of sessions is limited
(`webrtcRemoteConnections`, C57). The requests, timers and ends of children of one session run here as threads interleaved in any
order; the log says what happens to children.

A child runs until it ends by itself or is killed. What it does is not modelled here.
-/
namespace Verif.P2P.Children

/-- What happens to the children of the session. They are numbered in the order of their start. -/
inductive Act where
  | started (n : Nat)
  /-- the session remembers child `n` as its child (`pt.cmd`) -/
  | known (n : Nat)
  | killed (n : Nat)
  /-- child `n` ended by itself -/
  | exited (n : Nat)
  /-- the session is closed: it no longer counts against the limit -/
  | closed
deriving DecidableEq, Repr

/-! ## The specification -/

/-- The children that run. -/
def startedNum : Act → Option Nat
  | .started n => some n
  | _ => none

def running (log : List Act) : List Nat :=
  (log.filterMap startedNum).filter (fun n => !log.contains (.killed n) && !log.contains (.exited n))

/-- No child is started or made known after the session was closed (newest first). -/
def Quiet : List Act → Prop
  | [] => True
  | .started _ :: past => Act.closed ∉ past ∧ Quiet past
  | .known _ :: past => Act.closed ∉ past ∧ Quiet past
  | _ :: past => Quiet past

def isKilled : Act → Bool
  | .killed _ => true
  | _ => false

/-! ## The model -/

inductive Op where
  /-- `process` looks at `initDone` with an offer (peerproc.go:286, 371) -/
  | enterOffer
  /-- `process` looks at `initDone` with an answer or a candidate (peerproc.go:286-306, 471) -/
  | enterAnswer
  /-- `cmd.Start()` (peerproc.go:76-97) -/
  | spawn
  /-- the configuration is written, then `pt.cmd = cmd` (peerproc.go:150-151) -/
  | wire (c : Nat)
  /-- the exchange with the child (peerproc.go:376-397, 414-437, 471-480) -/
  | talk
  /-- `CompareAndSwap(&pt.closing, 0, 1)` in `Close` and `CloseWithLock` (peerproc.go:181, 197) -/
  | cas
  /-- `pt.cmd.Process.Kill()` (peerproc.go:189-192, 208-211) -/
  | kill
  /-- `closeWithLock` by the goroutine that waited for a child (peerproc.go:98-103, 215-228): it does not kill -/
  | casOnly
deriving DecidableEq, Repr

inductive Handler where
  | offer | getOffer | answer | close
deriving DecidableEq, Repr

/-- libcs/client/peerproc.go:370-400, 402-438, 440-481, 180-213 (and the timer, libcs/client/conn.go:557-560). -/
def program : Handler → List Op
  | .offer => [.enterOffer]
  | .getOffer => [.spawn, .talk]
  | .answer => [.enterAnswer]
  | .close => [.cas, .kill]

structure St where
  th : Nat → List Op := fun _ => []
  n : Nat := 0
  /-- `pt.cmd` -/
  cmd : Option Nat := none
  made : Nat := 0
  initDone : Bool := false
  closing : Bool := false
  log : List Act := []

def upd (f : Nat → List Op) (c : Nat) (v : List Op) : Nat → List Op := fun x => if x = c then v else f x

inductive Ev where
  | start (h : Handler)
  | run (i : Nat)
  /-- thread `i` returns early: a failed `Start`, or an error while talking to the child -/
  | quit (i : Nat)
  /-- child `c` ends by itself; the goroutine that waits for it goes on (peerproc.go:98-117) -/
  | exit (c : Nat)
deriving DecidableEq, Repr

def exec (s : St) (i : Nat) (rest : List Op) : Op → St
  | .enterOffer =>
    if s.initDone then { s with th := upd s.th i [.talk] }
    else { s with th := upd s.th i [.spawn, .talk], initDone := true }
  | .enterAnswer => { s with th := upd s.th i [.talk], initDone := true }
  | .spawn => { s with th := upd s.th i (.wire s.made :: rest), made := s.made + 1, log := .started s.made :: s.log }
  | .wire c => { s with th := upd s.th i rest, cmd := some c, log := .known c :: s.log }
  | .talk => { s with th := upd s.th i rest }
  | .cas =>
    if s.closing then { s with th := upd s.th i [] }
    else { s with th := upd s.th i rest, closing := true, log := .closed :: s.log }
  | .kill =>
    match s.cmd with
    | none => { s with th := upd s.th i rest }
    | some n => { s with th := upd s.th i rest, log := .killed n :: s.log }
  | .casOnly =>
    if s.closing then { s with th := upd s.th i [] }
    else { s with th := upd s.th i rest, closing := true, log := .closed :: s.log }

def step (s : St) : Ev → St
  | .start h => { s with th := upd s.th s.n (program h), n := s.n + 1 }
  | .run i =>
    match s.th i with
    | [] => s
    | o :: rest => exec s i rest o
  | .quit i =>
    match s.th i with
    | .spawn :: _ => { s with th := upd s.th i [] }
    | .talk :: _ => { s with th := upd s.th i [] }
    | _ => s
  | .exit c =>
    if Act.started c ∈ s.log ∧ Act.killed c ∉ s.log ∧ Act.exited c ∉ s.log then
      { s with th := upd s.th s.n [.casOnly], n := s.n + 1, log := .exited c :: s.log }
    else s

def run (es : List Ev) : St := es.foldl step {}

theorem run_append (es fs : List Ev) : run (es ++ fs) = fs.foldl step (run es) := by
  simp [run, List.foldl_append]

theorem run_ind (P : St → Prop) (h0 : P {}) (hs : ∀ s e, P s → P (step s e)) (es : List Ev) : P (run es) := by
  suffices h : ∀ s, P s → P (es.foldl step s) from h {} h0
  induction es with
  | nil => exact fun s h => h
  | cons e es ih => exact fun s h => ih _ (hs s e h)

/-! ## The invariant -/

/-- Neither closing nor killing. -/
def Plain (l : List Op) : Prop := Op.cas ∉ l ∧ Op.kill ∉ l ∧ Op.casOnly ∉ l

def Shape (l : List Op) : Prop := Plain l ∨ l = [.cas, .kill] ∨ l = [.kill] ∨ l = [.casOnly]

structure InvA (s : St) : Prop where
  shape : ∀ i, Shape (s.th i)
  one : ∀ i j, s.th i = [.kill] → s.th j = [.kill] → i = j
  pend : ∀ i, s.th i = [.kill] → s.closing = true ∧ s.log.filter isKilled = []
  calm : s.closing = false → s.log.filter isKilled = []
  le : (s.log.filter isKilled).length ≤ 1
  flag : s.closing = true ↔ Act.closed ∈ s.log
  idle : ∀ i, s.n ≤ i → s.th i = []

theorem plain_nil : Plain [] := by simp [Plain]

theorem Plain.tail {o : Op} {l : List Op} (h : Plain (o :: l)) : Plain l := by
  simp only [Plain, List.mem_cons, not_or] at h ⊢; exact ⟨h.1.2, h.2.1.2, h.2.2.2⟩

theorem upd_eq {f : Nat → List Op} {i j : Nat} {v w : List Op} (hv : v ≠ w) (h : upd f i v j = w) : f j = w ∧ j ≠ i := by
  unfold upd at h; split at h
  · exact absurd h hv
  · rename_i hj; exact ⟨h, hj⟩

theorem filter_cons_of {a : Act} {l : List Act} (h : isKilled a = false) : (a :: l).filter isKilled = l.filter isKilled := by
  rw [List.filter_cons, h]; rfl

theorem mem_filter_nil {l : List Act} (h : l.filter isKilled = []) (n : Nat) : Act.killed n ∉ l := by
  intro hm
  have : Act.killed n ∈ l.filter isKilled := List.mem_filter.mpr ⟨hm, rfl⟩
  rw [h] at this; simp at this

/-- A thread gets a program that is not about to kill; nothing is killed and the session is not closed. -/
theorem A_thread {s s' : St} (h : InvA s) (i : Nat) (v : List Op) (hv : Shape v) (hk : v ≠ [.kill])
    (hn : s'.n = s.n ∧ (s.th i ≠ [] ∨ v = []) ∨ s'.n = s.n + 1 ∧ i = s.n)
    (ht : s'.th = upd s.th i v) (hc : s'.closing = s.closing)
    (hf : s'.log.filter isKilled = s.log.filter isKilled) (hm : Act.closed ∈ s'.log ↔ Act.closed ∈ s.log) : InvA s' := by
  refine ⟨?_, ?_, ?_, ?_, ?_, ?_, ?_⟩
  · rw [ht]; intro j; unfold upd; split
    · exact hv
    · exact h.shape j
  · intro a b ha hb
    rw [ht] at ha hb
    exact h.one a b (upd_eq hk ha).1 (upd_eq hk hb).1
  · intro a ha; rw [ht] at ha; rw [hc, hf]; exact h.pend a (upd_eq hk ha).1
  · rw [hc, hf]; exact h.calm
  · rw [hf]; exact h.le
  · rw [hc, hm]; exact h.flag
  · intro a ha; rw [ht]; unfold upd; split
    · rename_i e; subst e
      rcases hn with ⟨hn, hx | hx⟩ | ⟨hn, hx⟩
      · exact absurd (h.idle a (by omega)) hx
      · exact hx
      · omega
    · rcases hn with ⟨hn, _⟩ | ⟨hn, _⟩
      · exact h.idle a (by omega)
      · exact h.idle a (by omega)

theorem plain_ne {l : List Op} (h : Plain l) : l ≠ [.kill] := by rintro rfl; simp [Plain] at h

theorem A_plain {s s' : St} (h : InvA s) (i : Nat) (v : List Op) (hv : Plain v) (hne : s.th i ≠ [])
    (hn : s'.n = s.n) (ht : s'.th = upd s.th i v) (hc : s'.closing = s.closing)
    (hf : s'.log.filter isKilled = s.log.filter isKilled) (hm : Act.closed ∈ s'.log ↔ Act.closed ∈ s.log) : InvA s' :=
  A_thread h i v (.inl hv) (plain_ne hv) (.inl ⟨hn, .inl hne⟩) ht hc hf hm

/-- Closing: the thread goes on with `v`. -/
theorem A_close {s : St} (h : InvA s) (i : Nat) (v : List Op) (hv : v = [] ∨ v = [.kill]) (hne : s.th i ≠ []) (hc : s.closing = false) :
    InvA { s with th := upd s.th i v, closing := true, log := .closed :: s.log } := by
  have hno : ∀ j, s.th j = [.kill] → False := fun j hj => by
    have := (h.pend j hj).1; rw [hc] at this; simp at this
  have hd := h.calm hc
  have e1 : ∀ x, upd s.th i v x = [.kill] → x = i := by
    intro x hx; unfold upd at hx; split at hx
    · assumption
    · exact (hno x hx).elim
  refine ⟨?_, ?_, ?_, ?_, ?_, ?_, ?_⟩
  · intro j; show Shape (upd s.th i v j); unfold upd; split
    · rcases hv with rfl | rfl
      · exact .inl plain_nil
      · exact .inr (.inr (.inl rfl))
    · exact h.shape j
  · intro a b ha hb; rw [e1 a ha, e1 b hb]
  · intro a ha; exact ⟨rfl, by rw [filter_cons_of rfl]; exact hd⟩
  · intro hx; simp at hx
  · rw [filter_cons_of rfl]; exact h.le
  · simp
  · intro a ha; show upd s.th i v a = []
    unfold upd; split
    · rename_i e; subst e; exact absurd (h.idle a ha) hne
    · exact h.idle a ha

theorem program_shape (h : Handler) : Shape (program h) ∧ program h ≠ [.kill] := by
  cases h <;> simp [program, Plain, Shape]

theorem A_step {s : St} (h : InvA s) (e : Ev) : InvA (step s e) := by
  cases e with
  | start hd =>
    exact A_thread (s' := step s (.start hd)) h s.n _ (program_shape hd).1 (program_shape hd).2 (.inr ⟨rfl, rfl⟩) rfl rfl rfl Iff.rfl
  | quit i =>
    simp only [step]
    split
    · rename_i hl; exact A_plain h i [] plain_nil (by rw [hl]; simp) rfl rfl rfl rfl Iff.rfl
    · rename_i hl; exact A_plain h i [] plain_nil (by rw [hl]; simp) rfl rfl rfl rfl Iff.rfl
    · exact h
  | exit c =>
    simp only [step]
    split
    · exact A_thread h s.n _ (.inr (.inr (.inr rfl))) (by simp) (.inr ⟨rfl, rfl⟩) rfl rfl (filter_cons_of rfl) (by simp)
    · exact h
  | run i =>
    simp only [step]
    have hs := h.shape i
    cases hl : s.th i with
    | nil => exact h
    | cons o rest =>
      dsimp only
      have hne : s.th i ≠ [] := by rw [hl]; simp
      rcases hs with hs | hs | hs | hs
      · have hr : Plain rest := Plain.tail (hl ▸ hs)
        cases o with
        | enterOffer => simp only [exec]; split <;> exact A_plain h i _ (by simp [Plain]) hne rfl rfl rfl rfl Iff.rfl
        | enterAnswer => exact A_plain h i _ (by simp [Plain]) hne rfl rfl rfl rfl Iff.rfl
        | spawn =>
          refine A_plain h i _ ?_ hne rfl rfl rfl (filter_cons_of rfl) (by simp [exec])
          simp only [Plain, List.mem_cons, not_or] at hr ⊢
          exact ⟨⟨by simp, hr.1⟩, ⟨by simp, hr.2.1⟩, ⟨by simp, hr.2.2⟩⟩
        | wire c => exact A_plain h i _ hr hne rfl rfl rfl (filter_cons_of rfl) (by simp [exec])
        | talk => exact A_plain h i _ hr hne rfl rfl rfl rfl Iff.rfl
        | cas => rw [hl] at hs; simp [Plain] at hs
        | kill => rw [hl] at hs; simp [Plain] at hs
        | casOnly => rw [hl] at hs; simp [Plain] at hs
      · rw [hl] at hs
        obtain ⟨rfl, rfl⟩ : o = .cas ∧ rest = [.kill] := by simpa using hs
        simp only [exec]
        by_cases hc : s.closing = true
        · rw [if_pos hc]; exact A_plain h i [] plain_nil hne rfl rfl rfl rfl Iff.rfl
        · rw [if_neg hc]; exact A_close h i _ (.inr rfl) hne (by simpa using hc)
      · have hp := h.pend i hs
        have hi := hs
        rw [hl] at hs
        obtain ⟨rfl, rfl⟩ : o = .kill ∧ rest = [] := by simpa using hs
        simp only [exec]
        split
        · exact A_plain h i [] plain_nil hne rfl rfl rfl rfl Iff.rfl
        · rename_i n hn
          have hno : ∀ j, upd s.th i [] j = [.kill] → False := by
            intro j hj
            obtain ⟨h1, h2⟩ := upd_eq (by simp) hj
            exact h2 (h.one j i h1 hi)
          refine ⟨?_, fun a b ha _ => (hno a ha).elim, fun a ha => (hno a ha).elim, ?_, ?_, ?_, ?_⟩
          · intro j; show Shape (upd s.th i [] j); unfold upd; split
            · exact .inl plain_nil
            · exact h.shape j
          · intro hx; dsimp only at hx; rw [hp.1] at hx; simp at hx
          · dsimp only; rw [List.filter_cons, hp.2]; simp [isKilled]
          · dsimp only; rw [h.flag]; simp
          · intro a ha; show upd s.th i [] a = []
            unfold upd; split
            · rfl
            · exact h.idle a ha
      · rw [hl] at hs
        obtain ⟨rfl, rfl⟩ : o = .casOnly ∧ rest = [] := by simpa using hs
        simp only [exec]
        by_cases hc : s.closing = true
        · rw [if_pos hc]; exact A_plain h i [] plain_nil hne rfl rfl rfl rfl Iff.rfl
        · rw [if_neg hc]; exact A_close h i _ (.inl rfl) hne (by simpa using hc)

theorem A_init : InvA {} := ⟨fun i => .inl plain_nil, by simp, by simp, by simp, by simp, by simp, by simp⟩

theorem A_run (es : List Ev) : InvA (run es) := run_ind InvA A_init (fun _ e h => A_step h e) es

/-- **C148**: whatever closes a session, and however often, it kills at most one process. -/
theorem kills_once (es : List Ev) : ((run es).log.filter isKilled).length ≤ 1 := (A_run es).le

/-- **C148**: no child is killed before the session is closed. -/
theorem killed_after_closing (es : List Ev) (n : Nat) (h : Act.killed n ∈ (run es).log) : Act.closed ∈ (run es).log := by
  have a := A_run es
  cases hc : (run es).closing with
  | true => exact a.flag.mp hc
  | false => exact absurd h (mem_filter_nil (a.calm hc) n)

structure InvB (s : St) : Prop where
  wst : ∀ i c, Op.wire c ∈ s.th i → Act.started c ∈ s.log
  cur : ∀ c, s.cmd = some c → Act.known c ∈ s.log
  lone : s.cmd = none → ∀ c, Act.known c ∉ s.log
  kst : ∀ c, Act.known c ∈ s.log → Act.started c ∈ s.log
  dst : ∀ c, Act.killed c ∈ s.log ∨ Act.exited c ∈ s.log → Act.started c ∈ s.log
  pendw : ∀ c, Act.started c ∈ s.log → Act.known c ∈ s.log ∨ ∃ i, Op.wire c ∈ s.th i
  nums : s.log.filterMap startedNum = (List.range s.made).reverse
  only : ∀ i, s.th i = [.casOnly] → ∃ c, Act.exited c ∈ s.log

/-- A thread goes on, or starts, with a program that remembers the same children; the log grows by a harmless entry. -/
theorem B_thread {s s' : St} (h : InvB s) (i : Nat) (v : List Op) (ht : s'.th = upd s.th i v)
    (hw : ∀ c, Op.wire c ∈ v ↔ Op.wire c ∈ s.th i) (hcmd : s'.cmd = s.cmd) (hm : s'.made = s.made)
    (hon : v = [.casOnly] → ∃ c, Act.exited c ∈ s'.log)
    (hl : s'.log = s.log ∨ ∃ a, s'.log = a :: s.log ∧ (a = .closed ∨ ∃ c, Act.started c ∈ s.log ∧ (a = .killed c ∨ a = .exited c))) :
    InvB s' := by
  have hup : ∀ j c, Op.wire c ∈ upd s.th i v j ↔ Op.wire c ∈ s.th j := by
    intro j c; unfold upd; split
    · rename_i e; rw [e]; exact hw c
    · exact Iff.rfl
  have hsub : ∀ x, x ∈ s.log → x ∈ s'.log := by
    intro x hx
    rcases hl with hl | ⟨a, hl, _⟩
    · rw [hl]; exact hx
    · rw [hl]; exact List.mem_cons_of_mem _ hx
  have hst : ∀ c, Act.started c ∈ s'.log → Act.started c ∈ s.log := by
    intro c hx
    rcases hl with hl | ⟨a, hl, ha⟩
    · rw [← hl]; exact hx
    · rw [hl] at hx
      rcases List.mem_cons.mp hx with hx | hx
      · subst hx; rcases ha with ha | ⟨_, _, ha | ha⟩ <;> simp at ha
      · exact hx
  have hkn : ∀ c, Act.known c ∈ s'.log → Act.known c ∈ s.log := by
    intro c hx
    rcases hl with hl | ⟨a, hl, ha⟩
    · rw [← hl]; exact hx
    · rw [hl] at hx
      rcases List.mem_cons.mp hx with hx | hx
      · subst hx; rcases ha with ha | ⟨_, _, ha | ha⟩ <;> simp at ha
      · exact hx
  refine ⟨?_, ?_, ?_, ?_, ?_, ?_, ?_, ?_⟩
  · intro j c hj; rw [ht, hup] at hj; exact hsub _ (h.wst j c hj)
  · intro c hc; rw [hcmd] at hc; exact hsub _ (h.cur c hc)
  · intro hc c hx; rw [hcmd] at hc; exact h.lone hc c (hkn c hx)
  · intro c hx; exact hsub _ (h.kst c (hkn c hx))
  · intro c hx
    rcases hl with hl | ⟨a, hl, ha⟩
    · rw [hl] at hx; exact hsub _ (h.dst c hx)
    · rw [hl] at hx
      simp only [List.mem_cons] at hx
      rcases ha with rfl | ⟨d, hd, rfl | rfl⟩
      · exact hsub _ (h.dst c (by simpa using hx))
      · simp only [Act.killed.injEq, reduceCtorEq, false_or] at hx
        rcases hx with (rfl | hx) | hx
        · exact hsub _ hd
        · exact hsub _ (h.dst c (.inl hx))
        · exact hsub _ (h.dst c (.inr hx))
      · simp only [Act.exited.injEq, reduceCtorEq, false_or] at hx
        rcases hx with hx | rfl | hx
        · exact hsub _ (h.dst c (.inl hx))
        · exact hsub _ hd
        · exact hsub _ (h.dst c (.inr hx))
  · intro c hx
    rcases h.pendw c (hst c hx) with h1 | ⟨j, h1⟩
    · exact .inl (hsub _ h1)
    · exact .inr ⟨j, by rw [ht, hup]; exact h1⟩
  · rw [hm, ← h.nums]
    rcases hl with hl | ⟨a, hl, ha⟩
    · rw [hl]
    · rw [hl]; rcases ha with rfl | ⟨_, _, rfl | rfl⟩ <;> rfl
  · intro j hj
    rw [ht] at hj
    unfold upd at hj; split at hj
    · exact hon hj
    · obtain ⟨c, hc⟩ := h.only j hj; exact ⟨c, hsub _ hc⟩

theorem B_init : InvB {} := ⟨by simp, by simp, by simp, by simp, by simp, by simp, by simp, by simp⟩

/-- The states of a thread. -/
inductive Form : List Op → Prop where
  | nil : Form []
  | eo : Form [.enterOffer]
  | ea : Form [.enterAnswer]
  | sp : Form [.spawn, .talk]
  | wi (c : Nat) : Form [.wire c, .talk]
  | ta : Form [.talk]
  | ck : Form [.cas, .kill]
  | ki : Form [.kill]
  | co : Form [.casOnly]

theorem upd_form {f : Nat → List Op} (h : ∀ i, Form (f i)) (i : Nat) {v : List Op} (hv : Form v) : ∀ j, Form (upd f i v j) := by
  intro j; unfold upd; split
  · exact hv
  · exact h j

theorem F_step {s : St} (h : ∀ i, Form (s.th i)) (e : Ev) : ∀ i, Form ((step s e).th i) := by
  cases e with
  | start hd => exact upd_form h _ (by cases hd <;> constructor)
  | quit i => simp only [step]; split <;> first | exact upd_form h _ .nil | exact h
  | exit c => simp only [step]; split; exact upd_form h _ .co; exact h
  | run i =>
    simp only [step]
    have hi := h i
    cases hl : s.th i with
    | nil => exact h
    | cons o rest =>
      rw [hl] at hi
      dsimp only
      cases hi with
      | eo => simp only [exec]; split; exact upd_form h _ .ta; exact upd_form h _ .sp
      | ea => exact upd_form h _ .ta
      | sp => exact upd_form h _ (.wi _)
      | wi c => exact upd_form h _ .ta
      | ta => exact upd_form h _ .nil
      | ck => simp only [exec]; split; exact upd_form h _ .nil; exact upd_form h _ .ki
      | ki => simp only [exec]; split <;> exact upd_form h _ .nil
      | co => simp only [exec]; split <;> exact upd_form h _ .nil

theorem B_step {s : St} (a : InvA s) (f : ∀ i, Form (s.th i)) (h : InvB s) (e : Ev) : InvB (step s e) := by
  have hidle := a.idle s.n (Nat.le_refl _)
  cases e with
  | start hd =>
    refine B_thread (s' := step s (.start hd)) h s.n (program hd) rfl ?_ rfl rfl ?_ (.inl rfl)
    · intro c; rw [hidle]; cases hd <;> simp [program]
    · cases hd <;> simp [program]
  | quit i =>
    simp only [step]
    have hs := f i
    split
    · rename_i r hl
      rw [hl] at hs; cases hs
      exact B_thread h i [] rfl (by intro c; rw [hl]; simp) rfl rfl (by simp) (.inl rfl)
    · rename_i r hl
      rw [hl] at hs; cases hs
      exact B_thread h i [] rfl (by intro c; rw [hl]; simp) rfl rfl (by simp) (.inl rfl)
    · exact h
  | exit c =>
    simp only [step]
    split
    · rename_i hc
      refine B_thread h s.n _ rfl ?_ rfl rfl (fun _ => ⟨c, List.mem_cons_self⟩) (.inr ⟨_, rfl, .inr ⟨c, hc.1, .inr rfl⟩⟩)
      intro d; rw [hidle]; simp
    · exact h
  | run i =>
    simp only [step]
    have hi := f i
    cases hl : s.th i with
    | nil => exact h
    | cons o rest =>
      rw [hl] at hi
      dsimp only
      cases hi with
      | eo =>
        simp only [exec]
        split <;> exact B_thread h i _ rfl (by intro c; rw [hl]; simp) rfl rfl (by simp) (.inl rfl)
      | ea => exact B_thread h i [.talk] rfl (by intro c; rw [hl]; simp) rfl rfl (by simp) (.inl rfl)
      | ta => exact B_thread h i [] rfl (by intro c; rw [hl]; simp) rfl rfl (by simp) (.inl rfl)
      | ck =>
        simp only [exec]
        split
        · exact B_thread h i _ rfl (by intro c; rw [hl]; simp) rfl rfl (by simp) (.inl rfl)
        · exact B_thread h i _ rfl (by intro c; rw [hl]; simp) rfl rfl (by simp) (.inr ⟨_, rfl, .inl rfl⟩)
      | co =>
        simp only [exec]
        split
        · exact B_thread h i _ rfl (by intro c; rw [hl]; simp) rfl rfl (by simp) (.inl rfl)
        · exact B_thread h i _ rfl (by intro c; rw [hl]; simp) rfl rfl (by simp) (.inr ⟨_, rfl, .inl rfl⟩)
      | ki =>
        simp only [exec]
        split
        · exact B_thread h i _ rfl (by intro c; rw [hl]; simp) rfl rfl (by simp) (.inl rfl)
        · rename_i n hc
          exact B_thread h i _ rfl (by intro c; rw [hl]; simp) rfl rfl (by simp)
            (.inr ⟨_, rfl, .inr ⟨n, h.kst n (h.cur n hc), .inl rfl⟩⟩)
      | sp =>
        refine ⟨?_, ?_, ?_, ?_, ?_, ?_, ?_, ?_⟩
        · intro j c hj
          simp only [exec] at hj ⊢
          unfold upd at hj; split at hj
          · simp at hj; subst hj; exact List.mem_cons_self
          · exact List.mem_cons_of_mem _ (h.wst j c hj)
        · intro c hc; exact List.mem_cons_of_mem _ (h.cur c hc)
        · intro hc c hx; exact h.lone hc c (by simpa [exec] using hx)
        · intro c hx; exact List.mem_cons_of_mem _ (h.kst c (by simpa [exec] using hx))
        · intro c hx; exact List.mem_cons_of_mem _ (h.dst c (by simpa [exec] using hx))
        · intro c hx
          simp only [exec, List.mem_cons, Act.started.injEq] at hx ⊢
          rcases hx with rfl | hx
          · exact .inr ⟨i, by simp [upd]⟩
          · rcases h.pendw c hx with h1 | ⟨j, h1⟩
            · exact .inl (.inr h1)
            · refine .inr ⟨j, ?_⟩
              unfold upd; rw [if_neg]; exact h1
              rintro rfl; rw [hl] at h1; simp at h1
        · simp only [exec, List.filterMap_cons, startedNum, h.nums, List.range_succ, List.reverse_append,
            List.reverse_cons, List.reverse_nil, List.nil_append, List.singleton_append]
        · intro j hj
          obtain ⟨c, hc⟩ := h.only j (upd_eq (by simp) hj).1; exact ⟨c, List.mem_cons_of_mem _ hc⟩
      | wi d =>
        have hd : Act.started d ∈ s.log := h.wst i d (by rw [hl]; simp)
        refine ⟨?_, ?_, ?_, ?_, ?_, ?_, ?_, ?_⟩
        · intro j c hj
          simp only [exec] at hj ⊢
          unfold upd at hj; split at hj
          · simp at hj
          · exact List.mem_cons_of_mem _ (h.wst j c hj)
        · intro c hc
          simp only [exec, Option.some.injEq] at hc; subst hc; exact List.mem_cons_self
        · intro hc; simp [exec] at hc
        · intro c hx
          simp only [exec, List.mem_cons, Act.known.injEq] at hx
          rcases hx with rfl | hx
          · exact List.mem_cons_of_mem _ hd
          · exact List.mem_cons_of_mem _ (h.kst c hx)
        · intro c hx; exact List.mem_cons_of_mem _ (h.dst c (by simpa [exec] using hx))
        · intro c hx
          rcases h.pendw c (by simpa [exec] using hx) with h1 | ⟨j, h1⟩
          · exact .inl (List.mem_cons_of_mem _ h1)
          · by_cases hj : j = i
            · subst hj
              rw [hl] at h1
              have : c = d := by simpa using h1
              subst this; exact .inl List.mem_cons_self
            · refine .inr ⟨j, ?_⟩
              simp only [exec]; unfold upd; rw [if_neg hj]; exact h1
        · exact h.nums
        · intro j hj
          obtain ⟨c, hc⟩ := h.only j (upd_eq (by simp) hj).1; exact ⟨c, List.mem_cons_of_mem _ hc⟩

/-- What became of a closed session. -/
def Done (s : St) : Prop :=
  s.closing = true → Quiet s.log →
    (∃ i, s.th i = [.kill]) ∨ (∃ m, Act.killed m ∈ s.log) ∨ (∃ m, Act.exited m ∈ s.log) ∨ ∀ m, Act.known m ∉ s.log

theorem Quiet.tail {a : Act} {l : List Act} (h : Quiet (a :: l)) : Quiet l := by
  cases a <;> simp only [Quiet] at h <;> first | exact h | exact h.2

theorem D_thread {s s' : St} (h : Done s) (i : Nat) (v : List Op) (hi : s.th i ≠ [.kill]) (ht : s'.th = upd s.th i v)
    (hc : s'.closing = s.closing) (hl : s'.log = s.log ∨ ∃ c, s'.log = .exited c :: s.log) : Done s' := by
  have key : (∃ i, s.th i = [.kill]) → ∃ i, s'.th i = [.kill] := by
    rintro ⟨j, hj⟩
    refine ⟨j, ?_⟩
    rw [ht]; unfold upd; rw [if_neg]; exact hj
    rintro rfl; exact hi hj
  intro x y
  rw [hc] at x
  rcases hl with hl | ⟨c, hl⟩
  · rw [hl] at y ⊢
    rcases h x y with d | d | d | d
    · exact .inl (key d)
    · exact .inr (.inl d)
    · exact .inr (.inr (.inl d))
    · exact .inr (.inr (.inr d))
  · rw [hl] at y ⊢
    exact .inr (.inr (.inl ⟨c, List.mem_cons_self⟩))

theorem D_step {s : St} (a : InvA s) (f : ∀ i, Form (s.th i)) (b : InvB s) (h : Done s) (e : Ev) : Done (step s e) := by
  have hidle := a.idle s.n (Nat.le_refl _)
  cases e with
  | start hd => exact D_thread (s' := step s (.start hd)) h s.n _ (by rw [hidle]; simp) rfl rfl (.inl rfl)
  | quit i =>
    simp only [step]
    split
    · rename_i hl; exact D_thread h i [] (by rw [hl]; simp) rfl rfl (.inl rfl)
    · rename_i hl; exact D_thread h i [] (by rw [hl]; simp) rfl rfl (.inl rfl)
    · exact h
  | exit c =>
    simp only [step]
    split
    · exact D_thread h s.n _ (by rw [hidle]; simp) rfl rfl (.inr ⟨c, rfl⟩)
    · exact h
  | run i =>
    simp only [step]
    have hi := f i
    cases hl : s.th i with
    | nil => exact h
    | cons o rest =>
      rw [hl] at hi
      dsimp only
      cases hi with
      | eo => simp only [exec]; split <;> exact D_thread h i _ (by rw [hl]; simp) rfl rfl (.inl rfl)
      | ea => exact D_thread (s' := exec s i [] .enterAnswer) h i _ (by rw [hl]; simp) rfl rfl (.inl rfl)
      | ta => exact D_thread (s' := exec s i [] .talk) h i _ (by rw [hl]; simp) rfl rfl (.inl rfl)
      | sp => intro x y; exact absurd (a.flag.mp x) y.1
      | wi d => intro x y; exact absurd (a.flag.mp x) y.1
      | ck =>
        simp only [exec]
        split
        · exact D_thread h i _ (by rw [hl]; simp) rfl rfl (.inl rfl)
        · intro _ _; exact .inl ⟨i, by simp [upd]⟩
      | co =>
        simp only [exec]
        split
        · exact D_thread h i _ (by rw [hl]; simp) rfl rfl (.inl rfl)
        · intro _ _
          obtain ⟨c, hc⟩ := b.only i hl
          exact .inr (.inr (.inl ⟨c, List.mem_cons_of_mem _ hc⟩))
      | ki =>
        simp only [exec]
        split
        · rename_i hc
          intro _ _; exact .inr (.inr (.inr (b.lone hc)))
        · rename_i n hc
          intro _ _; exact .inr (.inl ⟨n, List.mem_cons_self⟩)

theorem all_run (es : List Ev) : InvA (run es) ∧ InvB (run es) ∧ Done (run es) := by
  have := run_ind (fun s => InvA s ∧ (∀ i, Form (s.th i)) ∧ InvB s ∧ Done s)
    ⟨A_init, fun _ => .nil, B_init, by intro x; simp at x⟩
    (fun _ e h => ⟨A_step h.1 e, F_step h.2.1 e, B_step h.1 h.2.1 h.2.2.1 e, D_step h.1 h.2.1 h.2.2.1 h.2.2.2 e⟩) es
  exact ⟨this.1, this.2.2.1, this.2.2.2⟩

/-- **C148**: only children of the session are killed. -/
theorem kills_own (es : List Ev) (n : Nat) (h : Act.killed n ∈ (run es).log) : Act.started n ∈ (run es).log :=
  (all_run es).2.1.dst n (.inl h)

/-- **C148** (partial): when a session is closed and every thread is done, its only child does not run: it was killed or ended by
itself. Missing: sessions with several children, and a close while the child is being started, below. -/
theorem child_ends_partial (es : List Ev) (n : Nat) (hd : ∀ i, (run es).th i = []) (hc : Act.closed ∈ (run es).log)
    (hq : Quiet (run es).log) (hs : Act.started n ∈ (run es).log) (ho : ∀ m, Act.started m ∈ (run es).log → m = n) :
    Act.killed n ∈ (run es).log ∨ Act.exited n ∈ (run es).log := by
  obtain ⟨a, b, d⟩ := all_run es
  rcases d (a.flag.mpr hc) hq with ⟨i, hi⟩ | ⟨m, hm⟩ | ⟨m, hm⟩ | hk
  · rw [hd i] at hi; simp at hi
  · exact .inl (ho m (b.dst m (.inl hm)) ▸ hm)
  · exact .inr (ho m (b.dst m (.inr hm)) ▸ hm)
  · rcases b.pendw n hs with h1 | ⟨i, h1⟩
    · exact absurd h1 (hk n)
    · rw [hd i] at h1; simp at h1

/-- So no child runs. -/
theorem none_running_partial (es : List Ev) (n : Nat) (hd : ∀ i, (run es).th i = []) (hc : Act.closed ∈ (run es).log)
    (hq : Quiet (run es).log) (hs : Act.started n ∈ (run es).log) (ho : ∀ m, Act.started m ∈ (run es).log → m = n) :
    running (run es).log = [] := by
  have h := child_ends_partial es n hd hc hq hs ho
  unfold running
  rw [List.filter_eq_nil_iff]
  intro m hm
  rw [List.mem_filterMap] at hm
  obtain ⟨x, hx, hx2⟩ := hm
  have : m = n := by
    cases x with
    | started k => simp only [startedNum, Option.some.injEq] at hx2; subst hx2; exact ho _ hx
    | _ => simp [startedNum] at hx2
  subst this
  rcases h with h | h <;> simp [h]

/-! ## What goes wrong -/

/-- Closed, and nobody is about to kill. -/
def Over (s : St) : Prop := s.closing = true ∧ ∀ i, s.th i ≠ [.kill]

theorem over_upd {f : Nat → List Op} (h : ∀ i, f i ≠ [.kill]) (i : Nat) {v : List Op} (hv : v ≠ [.kill]) : ∀ j, upd f i v j ≠ [.kill] := by
  intro j; unfold upd; split
  · exact hv
  · exact h j

theorem over_step {s : St} (f : ∀ i, Form (s.th i)) (h : Over s) (e : Ev) :
    Over (step s e) ∧ ∀ n, Act.killed n ∈ (step s e).log → Act.killed n ∈ s.log := by
  cases e with
  | start hd => exact ⟨⟨h.1, over_upd h.2 _ (program_shape hd).2⟩, fun n hn => hn⟩
  | quit i =>
    simp only [step]
    split
    · exact ⟨⟨h.1, over_upd h.2 _ (by simp)⟩, fun n hn => hn⟩
    · exact ⟨⟨h.1, over_upd h.2 _ (by simp)⟩, fun n hn => hn⟩
    · exact ⟨h, fun n hn => hn⟩
  | exit c =>
    simp only [step]
    split
    · exact ⟨⟨h.1, over_upd h.2 _ (by simp)⟩, fun n hn => by simpa using hn⟩
    · exact ⟨h, fun n hn => hn⟩
  | run i =>
    simp only [step]
    have hi := f i
    cases hl : s.th i with
    | nil => exact ⟨h, fun n hn => hn⟩
    | cons o rest =>
      rw [hl] at hi
      dsimp only
      cases hi with
      | eo => simp only [exec]; split <;> exact ⟨⟨h.1, over_upd h.2 _ (by simp)⟩, fun n hn => hn⟩
      | ea => exact ⟨⟨h.1, over_upd h.2 _ (by simp)⟩, fun n hn => hn⟩
      | ta => exact ⟨⟨h.1, over_upd h.2 _ (by simp)⟩, fun n hn => hn⟩
      | sp => exact ⟨⟨h.1, over_upd h.2 _ (by simp)⟩, fun n hn => by simpa [exec] using hn⟩
      | wi d => exact ⟨⟨h.1, over_upd h.2 _ (by simp)⟩, fun n hn => by simpa [exec] using hn⟩
      | ck => simp only [exec, h.1, if_true]; exact ⟨⟨rfl, over_upd h.2 _ (by simp)⟩, fun n hn => hn⟩
      | co => simp only [exec, h.1, if_true]; exact ⟨⟨rfl, over_upd h.2 _ (by simp)⟩, fun n hn => hn⟩
      | ki => exact absurd hl (h.2 i)

theorem F_run (es : List Ev) : ∀ i, Form ((run es).th i) := run_ind (fun s => ∀ i, Form (s.th i)) (fun _ => .nil) (fun _ e h => F_step h e) es

/-- **C148 is false**: a child that was not killed when its session was closed is never killed, whatever happens afterwards. -/
theorem never_killed_later (es fs : List Ev) (n : Nat) (hc : Act.closed ∈ (run es).log) (hk : ∀ i, (run es).th i ≠ [.kill])
    (hn : Act.killed n ∉ (run es).log) : Act.killed n ∉ (run (es ++ fs)).log := by
  have h0 : Over (run es) := ⟨(A_run es).flag.mpr hc, hk⟩
  have hf := F_run es
  rw [run_append]
  generalize run es = s at *
  induction fs generalizing s with
  | nil => exact hn
  | cons e fs ih =>
    obtain ⟨h1, h2⟩ := over_step hf h0 e
    refine ih (step s e) ?_ h1.2 (fun hx => hn (h2 n hx)) h1 (F_step hf e)
    have hx : ∀ x, x ∈ s.log → x ∈ (step s e).log := by
      intro x hx
      cases e with
      | start hd => exact hx
      | quit i => simp only [step]; split <;> exact hx
      | exit c => simp only [step]; split; exact List.mem_cons_of_mem _ hx; exact hx
      | run i =>
        simp only [step]
        split
        · exact hx
        · rename_i o rest _
          cases o <;> simp only [exec] <;> first | exact hx | exact List.mem_cons_of_mem _ hx | (split <;> first | exact hx | exact List.mem_cons_of_mem _ hx)
    exact hx _ hc

/-- The session is closed between the start of the child and the line that remembers it. -/
def closedEarly : List Ev := [.start .offer, .run 0, .run 0, .start .close, .run 1, .run 1, .run 0, .run 0]

/-- **C148 is false**: then the child runs on, and nothing will ever kill it. -/
theorem closed_early (fs : List Ev) : Act.started 0 ∈ (run closedEarly).log ∧ Act.closed ∈ (run closedEarly).log ∧
    Act.killed 0 ∉ (run (closedEarly ++ fs)).log := by
  have hlog : (run closedEarly).log = [.known 0, .closed, .started 0] := by decide
  refine ⟨by rw [hlog]; simp, by rw [hlog]; simp, ?_⟩
  refine never_killed_later closedEarly fs 0 (by rw [hlog]; simp) ?_ (by rw [hlog]; simp)
  intro i hi
  have : i < 2 ∨ 2 ≤ i := by omega
  rcases this with h | h
  · have hx : i = 0 ∨ i = 1 := by omega
    rcases hx with rfl | rfl
    · exact absurd hi (by decide)
    · exact absurd hi (by decide)
  · rw [(A_run closedEarly).idle i (by show 2 ≤ i; omega)] at hi; simp at hi

/-- Two offers are asked for on one session; then the first child ends. -/
def firstEnds : List Ev := [.start .getOffer, .run 0, .run 0, .run 0, .start .getOffer, .run 1, .run 1, .run 1, .exit 0, .run 2]

/-- **C148 is false**: the session is closed by the end of the first child; the second runs on, uncounted, and nothing will ever kill
it. -/
theorem first_ends (fs : List Ev) : running (run firstEnds).log = [1] ∧ Act.closed ∈ (run firstEnds).log ∧
    Act.killed 1 ∉ (run (firstEnds ++ fs)).log := by
  have hlog : (run firstEnds).log = [.closed, .exited 0, .known 1, .started 1, .known 0, .started 0] := by decide
  refine ⟨by rw [hlog]; decide, by rw [hlog]; simp, ?_⟩
  refine never_killed_later firstEnds fs 1 (by rw [hlog]; simp) ?_ (by rw [hlog]; simp)
  intro i hi
  have : i < 3 ∨ 3 ≤ i := by omega
  rcases this with h | h
  · have hx : i = 0 ∨ i = 1 ∨ i = 2 := by omega
    rcases hx with rfl | rfl | rfl <;> exact absurd hi (by decide)
  · rw [(A_run firstEnds).idle i (by show 3 ≤ i; omega)] at hi; simp at hi

/-- `k` requests for an offer on one session, one after the other. -/
def asks : Nat → List Ev
  | 0 => []
  | k + 1 => asks k ++ [.start .getOffer, .run k, .run k, .run k]

theorem asks_state (k : Nat) : (run (asks k)).n = k ∧ (run (asks k)).made = k ∧ Act.closed ∉ (run (asks k)).log ∧
    (∀ m, Act.killed m ∉ (run (asks k)).log ∧ Act.exited m ∉ (run (asks k)).log) := by
  induction k with
  | zero => simp [asks, run]
  | succ k ih =>
    obtain ⟨h1, h2, h3, h4⟩ := ih
    simp only [asks, run_append, List.foldl_cons, List.foldl_nil]
    generalize run (asks k) = s at *
    subst h1
    simp only [step, program, upd, if_pos, exec, h2]
    refine ⟨trivial, trivial, by simp [h3], ?_⟩
    intro m; simp [(h4 m).1, (h4 m).2]

/-- **C148 is false**: one session, which counts as one connection, runs any number of children. -/
theorem no_limit (k : Nat) : (running (run (asks k)).log).length = k ∧ Act.closed ∉ (run (asks k)).log := by
  obtain ⟨_, h2, h3, h4⟩ := asks_state k
  refine ⟨?_, h3⟩
  unfold running
  rw [(all_run (asks k)).2.1.nums, h2, List.filter_eq_self.mpr]
  · simp
  · intro m _; simp [(h4 m).1, (h4 m).2]

/-- An offer, served, then two reasons to close. -/
def calmRun : List Ev :=
  [.start .offer, .run 0, .run 0, .run 0, .run 0, .start .answer, .run 1, .run 1, .start .close, .start .close, .run 3, .run 2, .run 3]

example : (run calmRun).log = [.killed 0, .closed, .known 0, .started 0] := by decide
example : Quiet (run calmRun).log := by
  have h : (run calmRun).log = [.killed 0, .closed, .known 0, .started 0] := by decide
  rw [h]; simp [Quiet]
example : running (run calmRun).log = [] := by decide
example : running (run (asks 3)).log = [2, 1, 0] := by decide

end Verif.P2P.Children
