import Verif.Common
set_option linter.unusedSimpArgs false
set_option linter.unusedVariables false
/-! # C32 — the in-memory pipe

Models `libcs/client/std/pipe.go` (`pipe.Read`, `Write`, `CloseRead`, `CloseWrite`, `StopPending`) as a
transition system over any number of goroutines: a step is one atomic action (a channel rendezvous, taking
the mutex, one branch of a `select`), the schedule is arbitrary.  Simplification: `onceError.Store` and the
`close(done)` that follows it are one step. -/

namespace Verif.Client.Pipe
open Verif

inductive Err | closedPipe | eof | other (k : Nat)
deriving DecidableEq, Repr

/-- Where a goroutine is.  `d` is the argument of `Write` (ghost), `b` what is left of it, `n` the count. -/
inductive Pc
  | idle
  | wLock (d : Bytes)              -- pipe.go: after the first select of Write, before wrMu is held
  | wSend (d b : Bytes) (n : Nat)  -- at `select { case p.wrCh <- b: … case <-p.done: … }`
  | wWait (d b : Bytes) (n : Nat)  -- at `nw := <-p.rdCh`
  | rSel (k : Nat)                 -- second select of Read with len(b) = k
  | rSend (x : Bytes)              -- at `p.rdCh <- nr`, the nr bytes x copied
deriving DecidableEq

structure St where
  pc : Nat → Pc
  lock : Option Nat
  done : Bool
  rerr : Option Err
  werr : Option Err

/-- Observable events: a call of `Read` or `Write` returns; an end is closed with an error (`none` = nil);
`StopPending(err)` interrupts a read. -/
inductive Ev
  | readRet (t : Nat) (x : Bytes) (err : Option Err)
  | writeRet (t : Nat) (d : Bytes) (n : Nat) (err : Option Err)
  | closedRead (e : Option Err)
  | closedWrite (e : Option Err)
  | stopped (t e : Nat)
deriving DecidableEq

def setPc (s : St) (t : Nat) (p : Pc) : St := { s with pc := fun t' => if t' = t then p else s.pc t' }

/-- pipe.go `readCloseError`. -/
def readCloseError (s : St) : Err :=
  match s.rerr, s.werr with
  | none, some e => e
  | _, _ => .closedPipe

/-- pipe.go `writeCloseError`. -/
def writeCloseError (s : St) : Err :=
  match s.werr, s.rerr with
  | none, some e => e
  | _, _ => .closedPipe

/-- One atomic action and the calls that return by it. -/
inductive Step : St → List Ev → St → Prop
  /-- Write, first select: not closed. -/
  | callWrite (s : St) (t : Nat) (d : Bytes) : s.pc t = .idle → s.done = false → Step s [] (setPc s t (.wLock d))
  /-- Write, first select: closed. -/
  | writeClosed (s : St) (t : Nat) (d : Bytes) : s.pc t = .idle → s.done = true →
      Step s [.writeRet t d 0 (some (writeCloseError s))] s
  /-- `p.wrMu.Lock()`. -/
  | acquire (s : St) (t : Nat) (d : Bytes) : s.pc t = .wLock d → s.lock = none →
      Step s [] { setPc s t (.wSend d d 0) with lock := some t }
  /-- rendezvous on `wrCh`; the reader copies. -/
  | handoff (s : St) (w r : Nat) (d b : Bytes) (n k : Nat) : s.pc w = .wSend d b n → s.pc r = .rSel k →
      Step s [] (setPc (setPc s w (.wWait d b n)) r (.rSend (b.take k)))
  /-- rendezvous on `rdCh`, more bytes left: the read returns, the writer loops. -/
  | ackMore (s : St) (w r : Nat) (d b : Bytes) (n : Nat) (x : Bytes) : s.pc w = .wWait d b n → s.pc r = .rSend x →
      b.drop x.length ≠ [] →
      Step s [.readRet r x none] (setPc (setPc s r .idle) w (.wSend d (b.drop x.length) (n + x.length)))
  /-- rendezvous on `rdCh`, nothing left: both calls return, the mutex is released. -/
  | ackLast (s : St) (w r : Nat) (d b : Bytes) (n : Nat) (x : Bytes) : s.pc w = .wWait d b n → s.pc r = .rSend x →
      b.drop x.length = [] →
      Step s [.readRet r x none, .writeRet w d (n + x.length) none]
        { setPc (setPc s r .idle) w .idle with lock := none }
  /-- `case <-p.done` of a waiting writer. -/
  | writerReleased (s : St) (w : Nat) (d b : Bytes) (n : Nat) : s.pc w = .wSend d b n → s.done = true →
      Step s [.writeRet w d n (some (writeCloseError s))] { setPc s w .idle with lock := none }
  | callRead (s : St) (t k : Nat) : s.pc t = .idle → s.done = false → Step s [] (setPc s t (.rSel k))
  | readClosed (s : St) (t k : Nat) : s.pc t = .idle → s.done = true →
      Step s [.readRet t [] (some (readCloseError s))] s
  /-- `case <-p.done` of a waiting reader. -/
  | readerReleased (s : St) (t k : Nat) : s.pc t = .rSel k → s.done = true →
      Step s [.readRet t [] (some (readCloseError s))] (setPc s t .idle)
  /-- `StopPending(err)` meets a waiting reader. -/
  | stopPending (s : St) (t k e : Nat) : s.pc t = .rSel k →
      Step s [.stopped t e, .readRet t [] (some (.other e))] (setPc s t .idle)
  | closeRead (s : St) (e : Option Err) :
      Step s [.closedRead e] { s with done := true, rerr := s.rerr.or (some (e.getD .closedPipe)) }
  | closeWrite (s : St) (e : Option Err) :
      Step s [.closedWrite e] { s with done := true, werr := s.werr.or (some (e.getD .eof)) }

/-- `Pipe()`. -/
def init : St := { pc := fun _ => .idle, lock := none, done := false, rerr := none, werr := none }

/-- Executions from `Pipe()` with their observable events. -/
inductive Reach : List Ev → St → Prop
  | start : Reach [] init
  | step (tr evs : List Ev) (s s' : St) : Reach tr s → Step s evs s' → Reach (tr ++ evs) s'

/-! ## Specification -/

/-- Everything the reads returned, in order. -/
def readBytes (tr : List Ev) : Bytes := (tr.map fun | .readRet _ x _ => x | _ => []).flatten

/-- What the writes that returned claim to have written, in order. -/
def writtenBytes (tr : List Ev) : Bytes := (tr.map fun | .writeRet _ d n _ => d.take n | _ => []).flatten

/-- A `Write` of goroutine `t` is in progress with `n` bytes of `d` counted so far. -/
def Writing (s : St) (t : Nat) (d : Bytes) (n : Nat) : Prop := ∃ b, s.pc t = .wSend d b n ∨ s.pc t = .wWait d b n

/-! ## Invariant -/

structure Inv (tr : List Ev) (s : St) : Prop where
  lock1 : ∀ t d n, Writing s t d n → s.lock = some t
  lock2 : ∀ t, s.lock = some t → ∃ d n, Writing s t d n
  rest : ∀ t d b n, (s.pc t = .wSend d b n ∨ s.pc t = .wWait d b n) → b = d.drop n ∧ n ≤ d.length
  partner1 : ∀ w d b n, s.pc w = .wWait d b n → ∃ r x, s.pc r = .rSend x ∧ ∃ k, x = b.take k
  partner2 : ∀ r x, s.pc r = .rSend x → ∃ w d b n, s.pc w = .wWait d b n
  single : ∀ r r' x x', s.pc r = .rSend x → s.pc r' = .rSend x' → r = r'
  bytes1 : ∀ t d n, Writing s t d n → readBytes tr = writtenBytes tr ++ d.take n
  bytes2 : s.lock = none → readBytes tr = writtenBytes tr
  full : ∀ t d n, Ev.writeRet t d n none ∈ tr → n = d.length
  some : ∀ t d n e, Ev.writeRet t d n e ∈ tr → n ≤ d.length

theorem readBytes_append (a b : List Ev) : readBytes (a ++ b) = readBytes a ++ readBytes b := by
  simp [readBytes]
theorem writtenBytes_append (a b : List Ev) : writtenBytes (a ++ b) = writtenBytes a ++ writtenBytes b := by
  simp [writtenBytes]

theorem pc_setPc (s : St) (t : Nat) (p : Pc) (t' : Nat) : (setPc s t p).pc t' = if t' = t then p else s.pc t' := rfl

/-- Changing a goroutine that neither writes nor is being answered keeps everything. -/
theorem Inv.plain {tr s s'} (evs : List Ev) (hi : Inv tr s) (t : Nat) (p : Pc)
    (hold : ∀ d b n x, s.pc t ≠ .wSend d b n ∧ s.pc t ≠ .wWait d b n ∧ s.pc t ≠ .rSend x)
    (hnew : ∀ d b n x, p ≠ .wSend d b n ∧ p ≠ .wWait d b n ∧ p ≠ .rSend x)
    (hs : s'.pc = (setPc s t p).pc) (hl : s'.lock = s.lock)
    (hr : readBytes evs = []) (hw : writtenBytes evs = [])
    (hev : ∀ t d n e, Ev.writeRet t d n e ∈ evs → n = 0 ∧ e ≠ none) : Inv (tr ++ evs) s' := by
  have pcs : ∀ t', s'.pc t' = if t' = t then p else s.pc t' := by intro t'; rw [hs]; rfl
  have old : ∀ t' d b n, (s'.pc t' = .wSend d b n ∨ s'.pc t' = .wWait d b n) →
      (s.pc t' = .wSend d b n ∨ s.pc t' = .wWait d b n) := by
    intro t' d b n h
    rw [pcs] at h
    split at h
    · rcases h with h | h
      · exact absurd h (hnew d b n []).1
      · exact absurd h (hnew d b n []).2.1
    · exact h
  have new : ∀ t' d b n, (s.pc t' = .wSend d b n ∨ s.pc t' = .wWait d b n) → s'.pc t' = s.pc t' := by
    intro t' d b n h
    rw [pcs]
    split
    · rename_i e; subst e
      rcases h with h | h
      · exact absurd h (hold d b n []).1
      · exact absurd h (hold d b n []).2.1
    · rfl
  have oldr : ∀ r x, s'.pc r = .rSend x → s.pc r = .rSend x := by
    intro r x h
    rw [pcs] at h
    split at h
    · exact absurd h (hnew [] [] 0 x).2.2
    · exact h
  have newr : ∀ r x, s.pc r = .rSend x → s'.pc r = .rSend x := by
    intro r x h
    rw [pcs]
    split
    · rename_i e; subst e; exact absurd h (hold [] [] 0 x).2.2
    · exact h
  have oldW : ∀ t' d n, Writing s' t' d n → Writing s t' d n := fun t' d n ⟨b, h⟩ => ⟨b, old t' d b n h⟩
  refine ⟨?_, ?_, ?_, ?_, ?_, ?_, ?_, ?_, ?_, ?_⟩
  · intro t' d n h; rw [hl]; exact hi.lock1 _ _ _ (oldW _ _ _ h)
  · intro t' h
    rw [hl] at h
    obtain ⟨d, n, b, hb⟩ := hi.lock2 _ h
    exact ⟨d, n, b, by rw [new _ _ _ _ hb]; exact hb⟩
  · intro t' d b n h; exact hi.rest _ _ _ _ (old _ _ _ _ h)
  · intro w d b n h
    rcases old w d b n (Or.inr h) with h' | h'
    · rw [new w d b n (Or.inl h'), h'] at h; simp at h
    · obtain ⟨r, x, h1, h2⟩ := hi.partner1 _ _ _ _ h'
      exact ⟨r, x, newr _ _ h1, h2⟩
  · intro r x h
    obtain ⟨w, d, b, n, h1⟩ := hi.partner2 _ _ (oldr _ _ h)
    exact ⟨w, d, b, n, by rw [new _ _ _ _ (Or.inr h1)]; exact h1⟩
  · intro r r' x x' h h'; exact hi.single _ _ _ _ (oldr _ _ h) (oldr _ _ h')
  · intro t' d n h
    rw [readBytes_append, writtenBytes_append, hr, hw]
    simpa using hi.bytes1 _ _ _ (oldW _ _ _ h)
  · intro h
    rw [hl] at h
    rw [readBytes_append, writtenBytes_append, hr, hw]
    simpa using hi.bytes2 h
  · intro t' d n h
    rcases List.mem_append.1 h with h | h
    · exact hi.full _ _ _ h
    · exact absurd rfl (hev _ _ _ _ h).2
  · intro t' d n e h
    rcases List.mem_append.1 h with h | h
    · exact hi.some _ _ _ _ h
    · have := (hev _ _ _ _ h).1; omega

theorem inv_init : Inv [] init := by
  constructor <;> simp [init, Writing, readBytes, writtenBytes]

theorem inv_step {tr evs s s'} (hi : Inv tr s) (h : Step s evs s') : Inv (tr ++ evs) s' := by
  cases h with
  | callWrite t d h1 h2 =>
    exact hi.plain [] t (.wLock d) (by simp [h1]) (by simp) rfl rfl rfl rfl (by simp)
  | writeClosed t d h1 h2 =>
    exact hi.plain _ t .idle (by simp [h1]) (by simp) (by
      funext t'; rw [pc_setPc]; split
      · rename_i e; rw [e, h1]
      · rfl) rfl (by simp [readBytes]) (by simp [writtenBytes]) (by
      intro t' d' n e h; simp at h; simp [h])
  | callRead t k h1 h2 =>
    exact hi.plain [] t (.rSel k) (by simp [h1]) (by simp) rfl rfl rfl rfl (by simp)
  | readClosed t k h1 h2 =>
    exact hi.plain _ t .idle (by simp [h1]) (by simp) (by
      funext t'; rw [pc_setPc]; split
      · rename_i e; rw [e, h1]
      · rfl) rfl (by simp [readBytes]) (by simp [writtenBytes]) (by simp)
  | readerReleased t k h1 h2 =>
    exact hi.plain _ t .idle (by simp [h1]) (by simp) rfl rfl (by simp [readBytes]) (by simp [writtenBytes]) (by simp)
  | stopPending t k e h1 =>
    exact hi.plain _ t .idle (by simp [h1]) (by simp) rfl rfl (by simp [readBytes]) (by simp [writtenBytes]) (by simp)
  | closeRead e =>
    refine ⟨hi.lock1, hi.lock2, hi.rest, hi.partner1, hi.partner2, hi.single, ?_, ?_, ?_, ?_⟩
    · intro t d n h; have := hi.bytes1 t d n h; simpa [readBytes, writtenBytes] using this
    · intro h; have := hi.bytes2 h; simpa [readBytes, writtenBytes] using this
    · intro t d n h; exact hi.full t d n (by simpa using h)
    · intro t d n e h; exact hi.some t d n e (by simpa using h)
  | closeWrite e =>
    refine ⟨hi.lock1, hi.lock2, hi.rest, hi.partner1, hi.partner2, hi.single, ?_, ?_, ?_, ?_⟩
    · intro t d n h; have := hi.bytes1 t d n h; simpa [readBytes, writtenBytes] using this
    · intro h; have := hi.bytes2 h; simpa [readBytes, writtenBytes] using this
    · intro t d n h; exact hi.full t d n (by simpa using h)
    · intro t d n e h; exact hi.some t d n e (by simpa using h)
  | acquire t d h1 h2 =>
    have nobody : ∀ t' d' n', ¬ Writing s t' d' n' := by
      intro t' d' n' hw; have := hi.lock1 _ _ _ hw; rw [h2] at this; simp at this
    have nor : ∀ r x, s.pc r ≠ .rSend x := by
      intro r x hx
      obtain ⟨w, d', b, n, hw⟩ := hi.partner2 r x hx
      exact nobody w d' n ⟨b, Or.inr hw⟩
    have pcs : ∀ t', ({ setPc s t (.wSend d d 0) with lock := some t } : St).pc t' = if t' = t then .wSend d d 0 else s.pc t' :=
      fun _ => rfl
    have wr : ∀ t' d' n', Writing { setPc s t (.wSend d d 0) with lock := some t } t' d' n' → t' = t ∧ d' = d ∧ n' = 0 := by
      rintro t' d' n' ⟨b, hb⟩
      rw [pcs] at hb
      split at hb
      · rename_i e
        simp at hb
        exact ⟨e, hb.1.symm, hb.2.2.symm⟩
      · exact absurd ⟨b, hb⟩ (nobody t' d' n')
    rw [List.append_nil]
    refine ⟨?_, ?_, ?_, ?_, ?_, ?_, ?_, ?_, hi.full, hi.some⟩
    · intro t' d' n' h; rw [(wr _ _ _ h).1]
    · intro t' h
      simp at h
      exact ⟨d, 0, d, Or.inl (by rw [pcs]; simp [h])⟩
    · intro t' d' b n h
      rw [pcs] at h
      split at h
      · simp at h; obtain ⟨rfl, rfl, rfl⟩ := h; simp
      · exact hi.rest _ _ _ _ h
    · intro w d' b n h
      rw [pcs] at h
      split at h
      · simp at h
      · exact absurd ⟨b, Or.inr h⟩ (nobody w d' n)
    · intro r x h
      rw [pcs] at h
      split at h
      · simp at h
      · exact absurd h (nor r x)
    · intro r r' x x' h h'
      rw [pcs] at h
      split at h
      · simp at h
      · exact absurd h (nor r x)
    · intro t' d' n' h
      obtain ⟨rfl, rfl, rfl⟩ := wr _ _ _ h
      simpa using hi.bytes2 h2
    · intro h; simp at h
  | handoff w r d b n k h1 h2 =>
    have hwr : w ≠ r := by intro e; rw [e, h2] at h1; simp at h1
    have pcs : ∀ t', (setPc (setPc s w (.wWait d b n)) r (.rSend (b.take k))).pc t' =
        if t' = r then .rSend (b.take k) else if t' = w then .wWait d b n else s.pc t' := fun _ => rfl
    have lk := hi.lock1 w d n ⟨b, Or.inl h1⟩
    have onlyw : ∀ t' d' n', Writing s t' d' n' → t' = w := by
      intro t' d' n' h
      have := hi.lock1 _ _ _ h
      rw [lk] at this; simp at this; exact this.symm
    have nor : ∀ r' x, s.pc r' ≠ .rSend x := by
      intro r' x hx
      obtain ⟨w', d', b', n', hw⟩ := hi.partner2 r' x hx
      have := onlyw w' d' n' ⟨b', Or.inr hw⟩
      rw [this, h1] at hw; simp at hw
    have wr : ∀ t' d' b' n', ((setPc (setPc s w (.wWait d b n)) r (.rSend (b.take k))).pc t' = .wSend d' b' n' ∨
        (setPc (setPc s w (.wWait d b n)) r (.rSend (b.take k))).pc t' = .wWait d' b' n') → t' = w ∧ d' = d ∧ b' = b ∧ n' = n := by
      intro t' d' b' n' h
      rw [pcs] at h
      split at h
      · simp at h
      · split at h
        · rename_i e; simp at h; exact ⟨e, h.1.symm, h.2.1.symm, h.2.2.symm⟩
        · rename_i e; exact absurd (onlyw t' d' n' ⟨b', h⟩) e
    rw [List.append_nil]
    refine ⟨?_, ?_, ?_, ?_, ?_, ?_, ?_, ?_, hi.full, hi.some⟩
    · rintro t' d' n' ⟨b', h⟩
      rw [(wr _ _ _ _ h).1]; exact lk
    · intro t' h
      have h : s.lock = some t' := h
      rw [lk] at h; simp at h; subst h
      exact ⟨d, n, b, Or.inr (by rw [pcs]; simp [hwr])⟩
    · intro t' d' b' n' h
      obtain ⟨rfl, rfl, rfl, rfl⟩ := wr _ _ _ _ h
      exact hi.rest _ _ _ _ (Or.inl h1)
    · intro w' d' b' n' h
      obtain ⟨rfl, rfl, rfl, rfl⟩ := wr _ _ _ _ (Or.inr h)
      exact ⟨r, b'.take k, by rw [pcs]; simp, k, rfl⟩
    · intro r' x h
      rw [pcs] at h
      split at h
      · exact ⟨w, d, b, n, by rw [pcs]; simp [hwr]⟩
      · split at h
        · simp at h
        · exact absurd h (nor r' x)
    · intro r1 r2 x1 x2 a1 a2
      rw [pcs] at a1 a2
      split at a1
      · split at a2
        · rename_i e1 e2; rw [e1, e2]
        · split at a2
          · simp at a2
          · exact absurd a2 (nor _ _)
      · split at a1
        · simp at a1
        · exact absurd a1 (nor _ _)
    · rintro t' d' n' ⟨b', h⟩
      obtain ⟨rfl, rfl, rfl, rfl⟩ := wr _ _ _ _ h
      exact hi.bytes1 t' d' n' ⟨b', Or.inl h1⟩
    · intro h
      have h : s.lock = none := h
      rw [lk] at h; simp at h
  | ackMore w r d b n x h1 h2 h3 =>
    have hwr : w ≠ r := by intro e; rw [e, h2] at h1; simp at h1
    have pcs : ∀ t', (setPc (setPc s r .idle) w (.wSend d (b.drop x.length) (n + x.length))).pc t' =
        if t' = w then .wSend d (b.drop x.length) (n + x.length) else if t' = r then .idle else s.pc t' := fun _ => rfl
    have lk := hi.lock1 w d n ⟨b, Or.inr h1⟩
    have onlyw : ∀ t' d' n', Writing s t' d' n' → t' = w := by
      intro t' d' n' h
      have := hi.lock1 _ _ _ h
      rw [lk] at this; simp at this; exact this.symm
    obtain ⟨hb, hn⟩ := hi.rest _ _ _ _ (Or.inr h1)
    have hx : x = (b.take x.length) ∧ x.length ≤ b.length := by
      obtain ⟨r', x', a1, k, a2⟩ := hi.partner1 _ _ _ _ h1
      have := hi.single _ _ _ _ h2 a1
      subst this
      rw [h2] at a1; simp at a1; subst a1
      subst a2
      simp; omega
    have wr : ∀ t' d' b' n', ((setPc (setPc s r .idle) w (.wSend d (b.drop x.length) (n + x.length))).pc t' = .wSend d' b' n' ∨
        (setPc (setPc s r .idle) w (.wSend d (b.drop x.length) (n + x.length))).pc t' = .wWait d' b' n') →
        t' = w ∧ d' = d ∧ b' = b.drop x.length ∧ n' = n + x.length ∧
        (setPc (setPc s r .idle) w (.wSend d (b.drop x.length) (n + x.length))).pc t' = .wSend d' b' n' := by
      intro t' d' b' n' h
      rw [pcs] at h ⊢
      split at h
      · rename_i e; simp at h; simp [e, h]
      · split at h
        · simp at h
        · rename_i e _; exact absurd (onlyw t' d' n' ⟨b', h⟩) e
    have nor : ∀ r' x', (setPc (setPc s r .idle) w (.wSend d (b.drop x.length) (n + x.length))).pc r' ≠ .rSend x' := by
      intro r' x' h
      rw [pcs] at h
      split at h
      · simp at h
      · split at h
        · simp at h
        · rename_i e; exact e (hi.single _ _ _ _ h h2)
    have hlen : x.length ≤ d.length - n := by
      have := hx.2; rw [hb] at this; simpa using this
    refine ⟨?_, ?_, ?_, ?_, ?_, ?_, ?_, ?_, ?_, ?_⟩
    · rintro t' d' n' ⟨b', h⟩; rw [(wr _ _ _ _ h).1]; exact lk
    · intro t' h
      have h : s.lock = some t' := h
      rw [lk] at h; simp at h; subst h
      exact ⟨d, n + x.length, b.drop x.length, Or.inl (by rw [pcs]; simp)⟩
    · intro t' d' b' n' h
      obtain ⟨rfl, rfl, rfl, rfl, _⟩ := wr _ _ _ _ h
      refine ⟨?_, by omega⟩
      rw [hb]; simp
    · intro w' d' b' n' h
      have := (wr _ _ _ _ (Or.inr h)).2.2.2.2
      rw [h] at this; simp at this
    · intro r' x' h; exact absurd h (nor _ _)
    · intro r1 r2 x1 x2 a1 a2; exact absurd a1 (nor _ _)
    · rintro t' d' n' ⟨b', h⟩
      obtain ⟨rfl, rfl, rfl, rfl, _⟩ := wr _ _ _ _ h
      rw [readBytes_append, writtenBytes_append, hi.bytes1 t' d' n ⟨b, Or.inr h1⟩]
      simp only [readBytes, writtenBytes, List.map_cons, List.map_nil, List.flatten_cons, List.flatten_nil,
        List.append_nil, List.append_assoc]
      congr 1
      rw [List.take_add, ← hb, ← hx.1]
    · intro h
      have h : s.lock = none := h
      rw [lk] at h; simp at h
    · intro t' d' n' h
      simp at h
      exact hi.full _ _ _ h
    · intro t' d' n' e h
      simp at h
      exact hi.some _ _ _ _ h
  | ackLast w r d b n x h1 h2 h3 =>
    have hwr : w ≠ r := by intro e; rw [e, h2] at h1; simp at h1
    have pcs : ∀ t', ({ setPc (setPc s r .idle) w .idle with lock := none } : St).pc t' =
        if t' = w then .idle else if t' = r then .idle else s.pc t' := fun _ => rfl
    have lk := hi.lock1 w d n ⟨b, Or.inr h1⟩
    have onlyw : ∀ t' d' n', Writing s t' d' n' → t' = w := by
      intro t' d' n' h
      have := hi.lock1 _ _ _ h
      rw [lk] at this; simp at this; exact this.symm
    obtain ⟨hb, hn⟩ := hi.rest _ _ _ _ (Or.inr h1)
    have hx : x = (b.take x.length) ∧ x.length ≤ b.length := by
      obtain ⟨r', x', a1, k, a2⟩ := hi.partner1 _ _ _ _ h1
      have := hi.single _ _ _ _ h2 a1
      subst this
      rw [h2] at a1; simp at a1; subst a1
      subst a2
      simp; omega
    have hlen : n + x.length = d.length := by
      have h4 := List.drop_eq_nil_iff.1 h3
      have h5 := hx.2
      rw [hb] at h4 h5
      simp at h4 h5
      omega
    have now : ∀ t' d' n', ¬ Writing { setPc (setPc s r .idle) w .idle with lock := none } t' d' n' := by
      rintro t' d' n' ⟨b', h⟩
      rw [pcs] at h
      split at h
      · simp at h
      · split at h
        · simp at h
        · rename_i e _; exact absurd (onlyw t' d' n' ⟨b', h⟩) e
    have nor : ∀ r' x', ({ setPc (setPc s r .idle) w .idle with lock := none } : St).pc r' ≠ .rSend x' := by
      intro r' x' h
      rw [pcs] at h
      split at h
      · simp at h
      · split at h
        · simp at h
        · rename_i e; exact e (hi.single _ _ _ _ h h2)
    refine ⟨?_, ?_, ?_, ?_, ?_, ?_, ?_, ?_, ?_, ?_⟩
    · intro t' d' n' h; exact absurd h (now _ _ _)
    · intro t' h; simp at h
    · intro t' d' b' n' h; exact absurd ⟨b', h⟩ (now t' d' n')
    · intro w' d' b' n' h; exact absurd ⟨b', Or.inr h⟩ (now w' d' n')
    · intro r' x' h; exact absurd h (nor _ _)
    · intro r1 r2 x1 x2 a1 a2; exact absurd a1 (nor _ _)
    · intro t' d' n' h; exact absurd h (now _ _ _)
    · intro _
      rw [readBytes_append, writtenBytes_append, hi.bytes1 w d n ⟨b, Or.inr h1⟩]
      simp only [readBytes, writtenBytes, List.map_cons, List.map_nil, List.flatten_cons, List.flatten_nil,
        List.append_nil, List.nil_append, List.append_assoc]
      congr 1
      rw [List.take_add, ← hb, ← hx.1]
    · intro t' d' n' h
      rcases List.mem_append.1 h with h | h
      · exact hi.full _ _ _ h
      · simp at h; obtain ⟨_, rfl, rfl⟩ := h; exact hlen
    · intro t' d' n' e h
      rcases List.mem_append.1 h with h | h
      · exact hi.some _ _ _ _ h
      · simp at h; obtain ⟨_, rfl, rfl, _⟩ := h; omega
  | writerReleased w d b n h1 h2 =>
    have pcs : ∀ t', ({ setPc s w .idle with lock := none } : St).pc t' = if t' = w then .idle else s.pc t' := fun _ => rfl
    have lk := hi.lock1 w d n ⟨b, Or.inl h1⟩
    have onlyw : ∀ t' d' n', Writing s t' d' n' → t' = w := by
      intro t' d' n' h
      have := hi.lock1 _ _ _ h
      rw [lk] at this; simp at this; exact this.symm
    have now : ∀ t' d' n', ¬ Writing { setPc s w .idle with lock := none } t' d' n' := by
      rintro t' d' n' ⟨b', h⟩
      rw [pcs] at h
      split at h
      · simp at h
      · rename_i e; exact absurd (onlyw t' d' n' ⟨b', h⟩) e
    have nor : ∀ r' x', ({ setPc s w .idle with lock := none } : St).pc r' ≠ .rSend x' := by
      intro r' x' h
      rw [pcs] at h
      split at h
      · simp at h
      · obtain ⟨w', d', b', n', hw⟩ := hi.partner2 _ _ h
        have := onlyw w' d' n' ⟨b', Or.inr hw⟩
        rw [this, h1] at hw; simp at hw
    refine ⟨?_, ?_, ?_, ?_, ?_, ?_, ?_, ?_, ?_, ?_⟩
    · intro t' d' n' h; exact absurd h (now _ _ _)
    · intro t' h; simp at h
    · intro t' d' b' n' h; exact absurd ⟨b', h⟩ (now t' d' n')
    · intro w' d' b' n' h; exact absurd ⟨b', Or.inr h⟩ (now w' d' n')
    · intro r' x' h; exact absurd h (nor _ _)
    · intro r1 r2 x1 x2 a1 a2; exact absurd a1 (nor _ _)
    · intro t' d' n' h; exact absurd h (now _ _ _)
    · intro _
      rw [readBytes_append, writtenBytes_append, hi.bytes1 w d n ⟨b, Or.inl h1⟩]
      simp [readBytes, writtenBytes]
    · intro t' d' n' h
      rcases List.mem_append.1 h with h | h
      · exact hi.full _ _ _ h
      · simp at h
    · intro t' d' n' e h
      rcases List.mem_append.1 h with h | h
      · exact hi.some _ _ _ _ h
      · simp at h; obtain ⟨_, rfl, rfl, _⟩ := h
        exact (hi.rest _ _ _ _ (Or.inl h1)).2

theorem reach_inv {tr s} (h : Reach tr s) : Inv tr s := by
  induction h with
  | start => exact inv_init
  | step tr evs s s' _ hs ih => exact inv_step ih hs

/-! ## Theorems -/

/-- **C32.**  In every execution, for any number of concurrent readers and writers, any sizes, any
schedule and closes at any time: the bytes returned by the reads so far are exactly the bytes the finished
writes report, in order, followed by the bytes taken so far from the write in progress (if there is one);
a write that returns without error has had all its bytes read; and no write reports more than it was given. -/
theorem pipe_is_fifo {tr : List Ev} {s : St} (h : Reach tr s) :
    ((∀ t d n, ¬ Writing s t d n) → readBytes tr = writtenBytes tr) ∧
    (∀ t d n, Writing s t d n → readBytes tr = writtenBytes tr ++ d.take n) ∧
    (∀ t d n, Ev.writeRet t d n none ∈ tr → n = d.length) ∧
    (∀ t d n e, Ev.writeRet t d n e ∈ tr → n ≤ d.length) := by
  have hi := reach_inv h
  refine ⟨?_, hi.bytes1, hi.full, hi.some⟩
  intro hno
  refine hi.bytes2 ?_
  cases hl : s.lock with
  | none => rfl
  | some t =>
    obtain ⟨d, n, hw⟩ := hi.lock2 t hl
    exact absurd hw (hno t d n)

/-- Prefixes of an execution are executions: the equation holds at the very moment a write returns. -/
theorem write_returns_after_reads {tr tr' : List Ev} {s s' : St} {t : Nat} {d : Bytes} {n : Nat}
    (h : Reach tr s) (hs : Step s tr' s') (hr : Ev.writeRet t d n none ∈ tr') :
    ∃ p, readBytes (tr ++ tr') = p ++ d ∧ p = writtenBytes tr := by
  have hi := reach_inv h
  cases hs with
  | ackLast w r d' b n' x h1 h2 h3 =>
    simp at hr
    obtain ⟨rfl, rfl, rfl⟩ := hr
    have hi' := inv_step hi (Step.ackLast s t r d b n' x h1 h2 h3)
    have h4 := hi'.bytes2 rfl
    have h5 := hi'.full t d (n' + x.length) (by simp)
    refine ⟨writtenBytes tr, ?_, rfl⟩
    rw [h4, writtenBytes_append]
    simp [writtenBytes, h5]
  | writeClosed => simp at hr
  | writerReleased => simp at hr
  | _ => simp at hr

/-- **C32, no stuck hand-off.**  A writer waiting for the count and a reader that copied always have each
other as partner: some step of the hand-off is enabled. -/
theorem handoff_completes {tr : List Ev} {s : St} (h : Reach tr s) :
    (∀ w d b n, s.pc w = .wWait d b n → ∃ evs s', Step s evs s' ∧ s'.pc w ≠ .wWait d b n) ∧
    (∀ r x, s.pc r = .rSend x → ∃ evs s', Step s evs s' ∧ s'.pc r = .idle ∧ Ev.readRet r x none ∈ evs) := by
  have hi := reach_inv h
  have go : ∀ w r d b n x, s.pc w = .wWait d b n → s.pc r = .rSend x →
      ∃ evs s', Step s evs s' ∧ s'.pc w ≠ .wWait d b n ∧ s'.pc r = .idle ∧ Ev.readRet r x none ∈ evs := by
    intro w r d b n x h1 h2
    have hne : r ≠ w := by rintro rfl; rw [h1] at h2; simp at h2
    by_cases h3 : b.drop x.length = []
    · exact ⟨_, _, Step.ackLast s w r d b n x h1 h2 h3, by simp [setPc], by simp [setPc], by simp⟩
    · exact ⟨_, _, Step.ackMore s w r d b n x h1 h2 h3, by simp [setPc], by simp [setPc, hne], by simp⟩
  refine ⟨?_, ?_⟩
  · intro w d b n h1
    obtain ⟨r, x, h2, _⟩ := hi.partner1 _ _ _ _ h1
    obtain ⟨evs, s', a, b', _⟩ := go w r d b n x h1 h2
    exact ⟨evs, s', a, b'⟩
  · intro r x h2
    obtain ⟨w, d, b, n, h1⟩ := hi.partner2 _ _ h2
    obtain ⟨evs, s', a, _, c⟩ := go w r d b n x h1 h2
    exact ⟨evs, s', a, c⟩

/-- **C32, closing releases.**  Once an end is closed, as long as some call is in progress some step that
makes a call return (or advances one towards it) is enabled, whatever the other goroutines do. -/
theorem close_releases {tr : List Ev} {s : St} (h : Reach tr s) (hd : s.done = true) (t : Nat)
    (hb : s.pc t ≠ .idle) :
    ∃ evs s', Step s evs s' ∧ (evs ≠ [] ∨ ∃ t' d, s.pc t' = .wLock d ∧ Writing s' t' d 0) := by
  have hi := reach_inv h
  have hold : ∀ t', (∃ d n, Writing s t' d n) → ∃ evs s', Step s evs s' ∧ evs ≠ [] := by
    rintro t' ⟨d, n, b, h1 | h1⟩
    · exact ⟨_, _, Step.writerReleased s t' d b n h1 hd, by simp⟩
    · obtain ⟨r, x, h2, _⟩ := hi.partner1 _ _ _ _ h1
      by_cases h3 : b.drop x.length = []
      · exact ⟨_, _, Step.ackLast s t' r d b n x h1 h2 h3, by simp⟩
      · exact ⟨_, _, Step.ackMore s t' r d b n x h1 h2 h3, by simp⟩
  cases hp : s.pc t with
  | idle => exact absurd hp hb
  | wLock d =>
    cases hl : s.lock with
    | none =>
      refine ⟨_, _, Step.acquire s t d hp hl, Or.inr ⟨t, d, hp, d, Or.inl ?_⟩⟩
      simp [setPc]
    | some t' =>
      obtain ⟨evs, s', a, b⟩ := hold t' (hi.lock2 _ hl)
      exact ⟨evs, s', a, Or.inl b⟩
  | wSend d b n =>
    obtain ⟨evs, s', a, b⟩ := hold t ⟨d, n, b, Or.inl hp⟩
    exact ⟨evs, s', a, Or.inl b⟩
  | wWait d b n =>
    obtain ⟨evs, s', a, b⟩ := hold t ⟨d, n, b, Or.inr hp⟩
    exact ⟨evs, s', a, Or.inl b⟩
  | rSel k => exact ⟨_, _, Step.readerReleased s t k hp hd, Or.inl (by simp)⟩
  | rSend x =>
    obtain ⟨w, d, b, n, h1⟩ := hi.partner2 _ _ hp
    obtain ⟨evs, s', a, b⟩ := hold w ⟨d, n, b, Or.inr h1⟩
    exact ⟨evs, s', a, Or.inl b⟩

/-- The error of the first close of the read end (a nil error stands for `ErrClosedPipe`). -/
def firstR (tr : List Ev) : Option Err := tr.findSome? fun | .closedRead e => some (e.getD .closedPipe) | _ => none

/-- The error of the first close of the write end (a nil error stands for `EOF`). -/
def firstW (tr : List Ev) : Option Err := tr.findSome? fun | .closedWrite e => some (e.getD .eof) | _ => none

theorem closes_recorded {tr : List Ev} {s : St} (h : Reach tr s) :
    s.rerr = firstR tr ∧ s.werr = firstW tr ∧ (s.done = true ↔ (firstR tr).isSome ∨ (firstW tr).isSome) := by
  induction h with
  | start => simp [init, firstR, firstW]
  | step tr evs s s' _ hs ih =>
    obtain ⟨h1, h2, h3⟩ := ih
    have ar : firstR (tr ++ evs) = (firstR tr).or (firstR evs) := by
      simp [firstR, List.findSome?_append]
    have aw : firstW (tr ++ evs) = (firstW tr).or (firstW evs) := by
      simp [firstW, List.findSome?_append]
    rw [ar, aw, ← h1, ← h2]
    rw [← h1, ← h2] at h3
    cases hs <;> (first | (simp [firstR, firstW, setPc]; done) | (simp [firstR, firstW, setPc]; simpa using h3) | (simp [firstR, firstW, setPc]; cases s.rerr <;> cases s.werr <;> simp))

/-- **C32, close errors.**  After any execution: a read that returns an error returns no bytes, and the error
is the one passed to the `StopPending` that interrupted it; or an end is closed, and the error is that of the
first close of the write end if the read end was not closed, and `ErrClosedPipe` otherwise.  Symmetrically for
writes.  A call made after a close does return such an error. -/
theorem close_errors {tr evs : List Ev} {s s' : St} (h : Reach tr s) (hs : Step s evs s') :
    (∀ t x e, Ev.readRet t x (some e) ∈ evs → x = [] ∧
      ((∃ k, Ev.stopped t k ∈ evs ∧ e = .other k) ∨
       (((firstR tr).isSome ∨ (firstW tr).isSome) ∧
        e = if firstR tr = none then (firstW tr).getD .closedPipe else .closedPipe))) ∧
    (∀ t d n e, Ev.writeRet t d n (some e) ∈ evs →
       ((firstR tr).isSome ∨ (firstW tr).isSome) ∧
        e = if firstW tr = none then (firstR tr).getD .closedPipe else .closedPipe) := by
  obtain ⟨h1, h2, h3⟩ := closes_recorded h
  have rce : readCloseError s = if firstR tr = none then (firstW tr).getD .closedPipe else .closedPipe := by
    unfold readCloseError
    rw [h1, h2]
    cases firstR tr <;> cases firstW tr <;> simp
  have wce : writeCloseError s = if firstW tr = none then (firstR tr).getD .closedPipe else .closedPipe := by
    unfold writeCloseError
    rw [h1, h2]
    cases firstR tr <;> cases firstW tr <;> simp
  rw [← rce, ← wce, ← h3]
  cases hs with
  | writeClosed t d a b => simp [b]
  | writerReleased w d b n a hd => simp [hd]
  | readClosed t k a hd => simp [hd]
  | readerReleased t k a hd => simp [hd]
  | stopPending t k e a =>
    refine ⟨?_, by simp⟩
    intro t' x e' hm
    simp at hm
    obtain ⟨rfl, rfl, rfl⟩ := hm
    exact ⟨rfl, Or.inl ⟨e, by simp, rfl⟩⟩
  | _ => simp

/-- **C32, calls after a close.**  Once an end was closed, a new call of `Read` or `Write` cannot start waiting:
its only step is to return. -/
theorem closed_calls_return {tr evs : List Ev} {s s' : St} (h : Reach tr s) (hs : Step s evs s')
    (hc : (firstR tr).isSome ∨ (firstW tr).isSome) (t : Nat) (hi : s.pc t = .idle) : s'.pc t = .idle := by
  have hd := (closes_recorded h).2.2.2 hc
  cases hs with
  | callWrite t' d a b => rw [hd] at b; simp at b
  | callRead t' k a b => rw [hd] at b; simp at b
  | acquire t' d a b =>
    have : t ≠ t' := by rintro rfl; rw [hi] at a; simp at a
    simp [setPc, this, hi]
  | handoff w r d b n k a1 a2 =>
    have q1 : t ≠ w := by rintro rfl; rw [hi] at a1; simp at a1
    have q2 : t ≠ r := by rintro rfl; rw [hi] at a2; simp at a2
    simp [setPc, q1, q2, hi]
  | ackMore w r d b n x a1 a2 a3 =>
    have q1 : t ≠ w := by rintro rfl; rw [hi] at a1; simp at a1
    simp [setPc, q1, hi]
  | ackLast w r d b n x a1 a2 a3 => simp [setPc, hi]
  | writerReleased w d b n a hd => simp [setPc, hi]
  | readerReleased t k a hd => simp [setPc, hi]
  | stopPending t k e a => simp [setPc, hi]
  | _ => exact hi

example : ∃ s, Reach [.closedWrite none, .closedWrite (some (.other 7)), .readRet 3 [] (some .eof),
    .closedRead none, .readRet 3 [] (some .closedPipe), .writeRet 4 [1] 0 (some .closedPipe)] s := by
  have s1 := Reach.step _ _ _ _ .start (.closeWrite _ none)
  have s2 := Reach.step _ _ _ _ s1 (.closeWrite _ (some (.other 7)))
  have s3 := Reach.step _ _ _ _ s2 (.readClosed _ 3 9 rfl rfl)
  have s4 := Reach.step _ _ _ _ s3 (.closeRead _ none)
  have s5 := Reach.step _ _ _ _ s4 (.readClosed _ 3 9 rfl rfl)
  have s6 := Reach.step _ _ _ _ s5 (.writeClosed _ 4 [1] rfl rfl)
  exact ⟨_, s6⟩

/-- End of stream: a read reports EOF only if the write end was closed with it. -/
theorem eof_only_after_close {tr : List Ev} {s : St} (h : Reach tr s) {t : Nat} {x : Bytes}
    (hr : Ev.readRet t x (some .eof) ∈ tr) : firstW tr = some .eof ∧ x = [] := by
  induction h with
  | start => simp at hr
  | step tr evs s s' h0 hs ih =>
    have aw : firstW (tr ++ evs) = (firstW tr).or (firstW evs) := by
      simp [firstW, List.findSome?_append]
    rcases List.mem_append.1 hr with hm | hm
    · obtain ⟨h1, h2⟩ := ih hm
      rw [aw, h1]; exact ⟨rfl, h2⟩
    · obtain ⟨hx, hc⟩ := (close_errors h0 hs).1 _ _ _ hm
      refine ⟨?_, hx⟩
      rcases hc with ⟨k, _, h1⟩ | ⟨_, h1⟩
      · simp at h1
      · rw [aw]
        cases hR : firstR tr <;> cases hW : firstW tr <;> simp [hR, hW] at h1
        simp [← h1]

/-- Non-vacuity: one writer, two readers; three bytes written, read as 2 + 1. -/
example : ∃ s, Reach [.readRet 1 [10, 11] none, .readRet 2 [12] none, .writeRet 0 [10, 11, 12] 3 none] s ∧
    ∀ t d n, ¬ Writing s t d n := by
  have s1 := Reach.step _ _ _ _ .start (.callWrite _ 0 [10, 11, 12] rfl rfl)
  have s2 := Reach.step _ _ _ _ s1 (.acquire _ 0 [10, 11, 12] rfl rfl)
  have s3 := Reach.step _ _ _ _ s2 (.callRead _ 1 2 rfl rfl)
  have s4 := Reach.step _ _ _ _ s3 (.handoff _ 0 1 [10, 11, 12] [10, 11, 12] 0 2 rfl rfl)
  have s5 := Reach.step _ _ _ _ s4 (.ackMore _ 0 1 [10, 11, 12] [10, 11, 12] 0 [10, 11] rfl rfl (by simp))
  have s6 := Reach.step _ _ _ _ s5 (.callRead _ 2 5 rfl rfl)
  have s7 := Reach.step _ _ _ _ s6 (.handoff _ 0 2 [10, 11, 12] [12] 2 5 rfl rfl)
  have s8 := Reach.step _ _ _ _ s7 (.ackLast _ 0 2 [10, 11, 12] [12] 2 [12] rfl rfl (by simp))
  refine ⟨_, s8, ?_⟩
  rintro t d n ⟨b, h⟩
  revert h
  simp only [setPc, init]
  repeat' split
  all_goals simp

end Verif.Client.Pipe
