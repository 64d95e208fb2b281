import Verif.Common
set_option linter.unusedSimpArgs false
set_option linter.unusedVariables false
/-!
# C94, C95: a stream of the BBR QUIC transport as a byte stream
(libcs/conn/msquic/stream.go:33-72 `Close`, `Read`, `Write`, 97-144 the callbacks;
libcs/conn/msquic/stream.cpp:38-44 `Send`)

Two machines: the reading half (with the life of the native object), and the writing half.
The native library is represented by its contract: received data is announced by one callback at a time, in order;
the descriptor given to `StreamSend` is read at some time before the completion of that send is announced.
-/
namespace Verif.Quic.Stream

/-! ## Reading -/

inductive RPC where
  | idle
  /-- about to call `StreamReceiveComplete` (libcs/conn/msquic/stream.go:58-59) -/
  | completing
deriving DecidableEq, Repr

structure R where
  /-- everything the library has announced so far -/
  delivered : List UInt8 := []
  /-- the callback `OnStreamReceive` in progress (libcs/conn/msquic/stream.go:121-132) -/
  pend : Option (List UInt8) := none
  /-- the channel `onReceive`, of capacity 1 -/
  chan : Option (List UInt8) := none
  /-- `receiveBuf` -/
  rbuf : List UInt8 := []
  /-- `onClose` is closed -/
  closed : Bool := false
  /-- the native object exists -/
  alive : Bool := true
  pc : RPC := .idle
  /-- everything that calls of `Read` have returned -/
  got : List UInt8 := []
  /-- what the calls of `Read` returned: `some n` bytes, or `none` for `io.EOF` -/
  rets : List (Option Nat) := []
  /-- the native object was used after its deletion -/
  bad : Bool := false
deriving DecidableEq, Repr

inductive RAct where
  /-- the library announces data -/
  | announce (b : List UInt8)
  /-- libcs/conn/msquic/stream.go:129: the callback puts it into the channel -/
  | put
  /-- libcs/conn/msquic/stream.go:130: the stream is closed, the callback drops it -/
  | drop
  /-- `Read` with room for `n` bytes, up to its return or its call of the native object -/
  | read (n : Nat)
  /-- `Read`, waiting with nothing buffered, chooses `onClose` (libcs/conn/msquic/stream.go:54-55) -/
  | readEof
  /-- libcs/conn/msquic/stream.go:58-59 -/
  | complete
  /-- libcs/conn/msquic/stream.go:98-106: the library reports that the stream is shut down (closed by the peer or lost) -/
  | shutdown
  /-- libcs/conn/msquic/stream.go:33-36: `Close` by any goroutine, first half -/
  | close
  /-- libcs/conn/msquic/stream.go:37-38: second half, the object is deleted -/
  | delete
deriving DecidableEq, Repr

/-- libcs/conn/msquic/stream.go:42-61 `Read`, and the callbacks. A step whose condition does not hold changes nothing. -/
def rstep (s : R) : RAct → R
  | .announce b =>
    if s.pend = none then { s with pend := some b, delivered := s.delivered ++ b } else s
  | .put =>
    match s.pend, s.chan with
    | some b, none => { s with chan := some b, pend := none }
    | _, _ => s
  | .drop =>
    match s.pend, s.closed with
    | some _, true => { s with pend := none }
    | _, _ => s
  | .read n =>
    if s.pc = .idle then
      if s.rbuf ≠ [] then
        { s with got := s.got ++ s.rbuf.take n, rbuf := s.rbuf.drop n, pc := .completing,
                 rets := s.rets ++ [some (s.rbuf.take n).length] }
      else match s.chan with
        | some b =>
          { s with got := s.got ++ b.take n, rbuf := b.drop n, chan := none, pc := .completing,
                   rets := s.rets ++ [some (b.take n).length] }
        | none => s
    else s
  | .readEof =>
    if s.pc = .idle ∧ s.rbuf = [] ∧ s.closed = true then { s with rets := s.rets ++ [none] } else s
  | .complete =>
    if s.pc = .completing then { s with pc := .idle, bad := s.bad || !s.alive } else s
  | .shutdown => { s with closed := true }
  | .close => { s with closed := true }
  | .delete => if s.closed then { s with alive := false } else s

def rrun (s : R) (as : List RAct) : R := as.foldl rstep s

/-- bytes announced and not yet returned -/
def R.waiting (s : R) : List UInt8 := s.rbuf ++ (s.chan.getD [] ++ s.pend.getD [])

theorem rrun_cons (s a as) : rrun s (a :: as) = rrun (rstep s a) as := rfl

theorem rstep_account {s : R} (h : s.got ++ s.waiting = s.delivered) (a : RAct) (ha : a ≠ .drop) :
    (rstep s a).got ++ (rstep s a).waiting = (rstep s a).delivered := by
  cases a with
  | announce b =>
    simp only [rstep]
    split
    · rename_i hp
      simp only [R.waiting, hp, Option.getD_none, Option.getD_some, List.append_nil] at h ⊢
      rw [← h]; simp
    · exact h
  | put =>
    simp only [rstep]
    split
    · rename_i b hp hc
      simp only [R.waiting, hp, hc, Option.getD_none, Option.getD_some] at h ⊢
      rw [← h]; simp
    · exact h
  | drop => exact absurd rfl ha
  | read n =>
    simp only [rstep]
    split
    · split
      · simp only [R.waiting] at h ⊢
        rw [← h]; simp [← List.append_assoc]
        rw [List.append_assoc s.got, List.take_append_drop]
      · rename_i hb
        have hb : s.rbuf = [] := by simpa using hb
        split
        · rename_i b hc
          simp only [R.waiting, hb, hc, Option.getD_none, Option.getD_some] at h ⊢
          rw [← h]; simp [← List.append_assoc]
          rw [List.append_assoc s.got, List.take_append_drop]
        · exact h
    · exact h
  | readEof =>
    simp only [rstep]
    split <;> exact h
  | complete =>
    simp only [rstep]
    split <;> exact h
  | shutdown => exact h
  | close => exact h
  | delete =>
    simp only [rstep]
    split <;> exact h

theorem rrun_account (as : List RAct) : ∀ (s : R), s.got ++ s.waiting = s.delivered → RAct.drop ∉ as →
    (rrun s as).got ++ (rrun s as).waiting = (rrun s as).delivered := by
  induction as with
  | nil => intro s h _; exact h
  | cons a as ih =>
    intro s h hn
    simp only [List.mem_cons, not_or] at hn
    rw [rrun_cons]
    exact ih _ (rstep_account h a (fun e => hn.1 e.symm)) hn.2

/-- **Nothing is lost, doubled or reordered while the stream is open**: for every schedule, with every sizes of
buffers and of announcements, what `Read` has returned followed by what waits is what has been announced. -/
theorem read_account (as : List RAct) (h : RAct.drop ∉ as) :
    (rrun {} as).got ++ (rrun {} as).waiting = (rrun {} as).delivered :=
  rrun_account as {} rfl h

theorem rstep_closed_mono (s : R) (a) (h : s.closed = true) : (rstep s a).closed = true := by
  cases a <;> simp only [rstep] <;> (repeat' split) <;> simp_all

theorem rrun_closed_mono (as : List RAct) : ∀ s : R, s.closed = true → (rrun s as).closed = true := by
  induction as with
  | nil => intro s h; exact h
  | cons a as ih => intro s h; exact ih _ (rstep_closed_mono s a h)

theorem rstep_drop_open (s : R) (h : s.closed = false) : rstep s .drop = s := by
  simp only [rstep]
  split
  · rename_i h'; rw [h] at h'; cases h'
  · rfl

theorem open_account (as : List RAct) : ∀ (s : R), s.got ++ s.waiting = s.delivered →
    (rrun s as).closed = false → (rrun s as).got ++ (rrun s as).waiting = (rrun s as).delivered := by
  induction as with
  | nil => intro s h _; exact h
  | cons a as ih =>
    intro s h hc
    rw [rrun_cons] at hc ⊢
    have h0 : s.closed = false := by
      cases hs : s.closed with
      | false => rfl
      | true =>
        have := rrun_closed_mono as _ (rstep_closed_mono s a hs)
        rw [this] at hc; cases hc
    apply ih _ _ hc
    by_cases ha : a = .drop
    · subst ha; rw [rstep_drop_open s h0]; exact h
    · exact rstep_account h a ha

/-- The same without any condition on the schedule, while the stream is open. -/
theorem read_account_open (as : List RAct) (h : (rrun {} as).closed = false) :
    (rrun {} as).got ++ (rrun {} as).waiting = (rrun {} as).delivered :=
  open_account as {} rfl h

theorem prefix_aux (as : List RAct) : ∀ (s : R), (s.got ++ s.waiting) <+: s.delivered →
    (∀ b, RAct.announce b ∉ as) → (rrun s as).got <+: (rrun s as).delivered := by
  induction as with
  | nil => intro s h _; exact (List.prefix_append _ _).trans h
  | cons a as ih =>
    intro s h hn
    rw [rrun_cons]
    apply ih _ _ (fun b hm => hn b (List.mem_cons_of_mem _ hm))
    have ha : ∀ b, a ≠ .announce b := fun b e => hn b (by simp [e])
    by_cases hd : a = .drop
    · subst hd
      simp only [rstep]
      split
      · rename_i b hp hc
        refine List.IsPrefix.trans ?_ h
        simp only [R.waiting, hp, Option.getD_none, Option.getD_some, List.append_nil]
        exact ⟨b, by simp⟩
      · exact h
    · -- no other step changes the sum or the announced bytes
      obtain ⟨t, ht⟩ := h
      have := rstep_account (s := { s with delivered := s.got ++ s.waiting }) rfl a hd
      have e1 : (rstep { s with delivered := s.got ++ s.waiting } a).got = (rstep s a).got := by
        cases a <;> simp only [rstep] <;> (repeat' split) <;> simp_all
      have e2 : (rstep { s with delivered := s.got ++ s.waiting } a).waiting = (rstep s a).waiting := by
        cases a <;> simp only [rstep] <;> (repeat' split) <;> simp_all [R.waiting]
      have e3 : (rstep { s with delivered := s.got ++ s.waiting } a).delivered = s.got ++ s.waiting := by
        cases a with
        | announce b => exact absurd rfl (ha b)
        | _ => simp only [rstep] <;> (repeat' split) <;> rfl
      have e4 : (rstep s a).delivered = s.delivered := by
        cases a with
        | announce b => exact absurd rfl (ha b)
        | _ => simp only [rstep] <;> (repeat' split) <;> rfl
      rw [e1, e2, e3] at this
      rw [this, e4]
      exact ⟨t, ht⟩

/-- **What `Read` returns is always a prefix of what was announced**, also after the end: for every schedule `as` of a stream
still open followed by any schedule `bs` in which nothing new is announced.
C94. Missing from the claim: that everything is read before the end is reported, which is false (`eof_before_data`, `data_lost_at_close`). -/
theorem read_prefix_partial (as bs : List RAct) (h : (rrun {} as).closed = false) (hb : ∀ b, RAct.announce b ∉ bs) :
    (rrun {} (as ++ bs)).got <+: (rrun {} (as ++ bs)).delivered := by
  have e : rrun {} (as ++ bs) = rrun (rrun {} as) bs := by simp [rrun, List.foldl_append]
  rw [e]
  apply prefix_aux bs _ _ hb
  rw [read_account_open as h]
  exact List.prefix_refl _

/-- the bytes returned only grow -/
theorem rstep_got_mono (s : R) (a) : s.got <+: (rstep s a).got := by
  cases a <;> simp only [rstep] <;> (repeat' split) <;> simp_all

/-- `io.EOF` is only returned on a stream that was closed or shut down. -/
theorem eof_only_if_closed (as : List RAct) (h : none ∈ (rrun {} as).rets) : (rrun {} as).closed = true := by
  suffices hs : ∀ (as : List RAct) (s : R), (none ∈ s.rets → s.closed = true) →
      (none ∈ (rrun s as).rets → (rrun s as).closed = true) from hs as {} (by simp) h
  intro as
  induction as with
  | nil => intro s h; exact h
  | cons a as ih =>
    intro s h
    rw [rrun_cons]
    apply ih
    intro hm
    by_cases hc : s.closed = true
    · exact rstep_closed_mono s a hc
    · exfalso
      have hn : none ∉ s.rets := fun hx => hc (h hx)
      revert hm
      cases a <;> simp only [rstep] <;> (repeat' split) <;> simp_all

/-- No data is returned after the last byte has been: a read returns at least one byte or the stream has nothing buffered,
if the caller's buffer is not empty and no empty announcement was made. -/
theorem read_makes_progress {s : R} {n : Nat} (hn : 0 < n) (hpc : s.pc = .idle)
    (hw : s.rbuf ≠ [] ∨ ∃ b, s.chan = some b ∧ b ≠ []) :
    s.got.length < (rstep s (.read n)).got.length := by
  simp only [rstep, hpc, if_true]
  by_cases hb : s.rbuf = []
  · rcases hw with hw | ⟨b, hc, hb'⟩
    · exact absurd hb hw
    · have : 0 < b.length := List.length_pos_iff.2 hb'
      simp [hb, hc]; omega
  · have : 0 < s.rbuf.length := List.length_pos_iff.2 hb
    simp [hb]; omega

/-- A reader that goes on reading: three calls of `Read` with room for `n` bytes. -/
def drain (n : Nat) : List RAct := [.complete, .read n, .complete, .read n, .complete, .put, .read n, .complete]

/-- **C94, everything announced can be read**: whatever has happened on the stream, as long as it is open a reader that goes on reading
gets everything that was announced, and can read again. -/
theorem everything_can_be_read (as : List RAct) (h : (rrun {} as).closed = false) :
    ∃ n, (rrun (rrun {} as) (drain n)).got = (rrun {} as).delivered ∧ (rrun (rrun {} as) (drain n)).pc = .idle := by
  have hacc := read_account_open as h
  generalize rrun {} as = s at h hacc ⊢
  obtain ⟨delivered, pend, chan, rbuf, closed, alive, pc, got, rets, bad⟩ := s
  simp only [R.waiting] at hacc h
  subst h
  refine ⟨delivered.length, ?_⟩
  have hr : rbuf.length ≤ delivered.length := by rw [← hacc]; simp only [List.length_append]; omega
  have hc : ∀ b, chan = some b → b.length ≤ delivered.length := by
    rintro b rfl; rw [← hacc]; simp only [List.length_append, Option.getD_some]; omega
  have hp : ∀ b, pend = some b → b.length ≤ delivered.length := by
    rintro b rfl; rw [← hacc]; simp only [List.length_append, Option.getD_some]; omega
  have idle : ∀ pc' : RPC, ∃ bad', rstep ⟨delivered, pend, chan, rbuf, false, alive, pc', got, rets, bad⟩ .complete =
      ⟨delivered, pend, chan, rbuf, false, alive, .idle, got, rets, bad'⟩ := by
    intro pc'
    cases pc'
    · exact ⟨bad, rfl⟩
    · exact ⟨bad || !alive, rfl⟩
  obtain ⟨bad', hb⟩ := idle pc
  simp only [drain, rrun_cons, hb]
  clear hb idle
  by_cases hrb : rbuf = []
  · subst hrb
    cases chan with
    | none =>
      cases pend with
      | none => simp [rrun, rstep] at hacc ⊢; exact hacc
      | some b =>
        have h1 := hp b rfl
        simp [rrun, rstep, List.take_of_length_le h1, List.drop_of_length_le h1] at hacc ⊢; exact hacc
    | some c =>
      have h2 := hc c rfl
      cases pend with
      | none => simp [rrun, rstep, List.take_of_length_le h2, List.drop_of_length_le h2] at hacc ⊢; exact hacc
      | some b =>
        have h1 := hp b rfl
        simp [rrun, rstep, List.take_of_length_le h1, List.drop_of_length_le h1, List.take_of_length_le h2, List.drop_of_length_le h2] at hacc ⊢
        exact hacc
  · cases chan with
    | none =>
      cases pend with
      | none => simp [rrun, rstep, hrb, List.take_of_length_le hr, List.drop_of_length_le hr] at hacc ⊢; exact hacc
      | some b =>
        have h1 := hp b rfl
        simp [rrun, rstep, hrb, List.take_of_length_le h1, List.drop_of_length_le h1, List.take_of_length_le hr, List.drop_of_length_le hr] at hacc ⊢
        exact hacc
    | some c =>
      have h2 := hc c rfl
      cases pend with
      | none =>
        simp [rrun, rstep, hrb, List.take_of_length_le h2, List.drop_of_length_le h2, List.take_of_length_le hr, List.drop_of_length_le hr] at hacc ⊢
        exact hacc
      | some b =>
        have h1 := hp b rfl
        simp [rrun, rstep, hrb, List.take_of_length_le h1, List.drop_of_length_le h1, List.take_of_length_le h2, List.drop_of_length_le h2,
          List.take_of_length_le hr, List.drop_of_length_le hr] at hacc ⊢
        exact hacc

/-- (violation) End of file is reported although received data is waiting, and is not final: the peer sent three bytes and
closed; `Read` says end of file; the next `Read` returns the bytes. (Which case of the `select` is taken is random.) -/
theorem eof_before_data :
    let s := rrun {} [.announce [1, 2, 3], .put, .shutdown, .readEof]
    s.rets = [none] ∧ s.got = [] ∧ s.waiting = [1, 2, 3] ∧
    (rrun s [.read 10]).rets = [none, some 3] := by decide

/-- (violation) An announcement still being handed over when the peer closes is lost for good. -/
theorem data_lost_at_close :
    let s := rrun {} [.announce [1], .put, .announce [2], .shutdown, .drop, .read 10, .complete, .readEof]
    s.delivered = [1, 2] ∧ s.got = [1] ∧ s.waiting = [] := by decide

/-- (violation) The end of the peer's sending side (an announcement without data) is not reported as end of file, but as a read
of no bytes without an error. -/
theorem half_close_not_eof :
    (rrun {} [.announce [], .put, .read 10]).rets = [some 0] := by decide

/-! ### The life of the native object -/

/-- Without a local `Close` the object is never used after its deletion. -/
theorem no_use_after_free_without_close (as : List RAct) (h : RAct.delete ∉ as) : (rrun {} as).bad = false := by
  suffices hs : ∀ (as : List RAct) (s : R), s.alive = true → s.bad = false → RAct.delete ∉ as →
      (rrun s as).bad = false from hs as {} rfl rfl h
  intro as
  induction as with
  | nil => intro s _ h _; exact h
  | cons a as ih =>
    intro s h1 h2 hn
    simp only [List.mem_cons, not_or] at hn
    rw [rrun_cons]
    apply ih _ _ _ hn.2
    · cases a <;> simp only [rstep] <;> (repeat' split) <;> simp_all
    · cases a <;> simp only [rstep] <;> (repeat' split) <;> simp_all

/-- Nor with one, if the stream is only closed between two calls of `Read`, and not read from afterwards. -/
theorem no_use_after_free_if_reader_closes (as : List RAct) (h : RAct.delete ∉ as)
    (hp : (rrun {} as).pc = .idle) (bs : List RAct) (hb : ∀ n, RAct.read n ∉ bs) :
    (rrun {} (as ++ .close :: .delete :: bs)).bad = false := by
  have e : rrun {} (as ++ .close :: .delete :: bs) = rrun (rstep (rstep (rrun {} as) .close) .delete) bs := by
    simp [rrun, List.foldl_append]
  rw [e]
  have h0 := no_use_after_free_without_close as h
  suffices hs : ∀ (bs : List RAct) (s : R), s.pc = .idle → s.bad = false → (∀ n, RAct.read n ∉ bs) →
      (rrun s bs).bad = false by
    apply hs bs _ _ _ hb
    · simp [rstep, hp]
    · simp [rstep, h0]
  intro bs
  induction bs with
  | nil => intro s _ h _; exact h
  | cons a bs ih =>
    intro s h1 h2 hn
    rw [rrun_cons]
    have hr : ∀ n, a ≠ .read n := fun n e => hn n (by simp [e])
    apply ih _ _ _ (fun n hm => hn n (List.mem_cons_of_mem _ hm))
    · cases a with
      | read n => exact absurd rfl (hr n)
      | _ => simp only [rstep] <;> (repeat' split) <;> simp_all
    · cases a with
      | read n => exact absurd rfl (hr n)
      | _ => simp only [rstep] <;> (repeat' split) <;> simp_all

/-- (violation) A `Close` by another goroutine while a `Read` is about to report the bytes it took: the deleted native object is
used. -/
theorem use_after_free :
    (rrun {} [.announce [1], .put, .read 10, .close, .delete, .complete]).bad = true := by decide

/-- (violation) So is it by any `Read` after `Close` that still finds data. -/
theorem use_after_free_read_after_close :
    (rrun {} [.announce [1], .put, .close, .delete, .read 10, .complete]).bad = true := by decide

/-! ## Writing -/

inductive WPC where
  | idle
  /-- waiting in the `select` of libcs/conn/msquic/stream.go:66-71 -/
  | waiting
  | ok
  | failed
deriving DecidableEq, Repr

structure W where
  /-- the member `sendBuffer` of the native object: one for all calls -/
  desc : List UInt8 := []
  /-- number of sends the library has taken and not carried out -/
  queued : Nat := 0
  /-- number of completions to be announced -/
  done : Nat := 0
  /-- the channel `onSend`, of capacity 1 -/
  token : Bool := false
  closed : Bool := false
  /-- the goroutines that write -/
  pcs : List (Nat × WPC) := []
  /-- what the library has sent -/
  wire : List UInt8 := []
deriving DecidableEq, Repr

def getPC (l : List (Nat × WPC)) (g : Nat) : WPC :=
  match l.find? (fun p => p.1 == g) with
  | some p => p.2
  | none => .idle

inductive WAct where
  /-- goroutine `g` calls `Write`: libcs/conn/msquic/stream.go:64-65, stream.cpp:38-44; `accepted`: whether `StreamSend` of the library succeeds
  (its status is ignored) -/
  | write (g : Nat) (data : List UInt8) (accepted : Bool)
  /-- the library carries out the next send: it reads the descriptor -/
  | send
  /-- libcs/conn/msquic/stream.go:135-144: the completion is announced -/
  | announce
  /-- libcs/conn/msquic/stream.go:67: goroutine `g` takes the completion -/
  | take (g : Nat)
  /-- libcs/conn/msquic/stream.go:69: goroutine `g` sees the stream closed -/
  | giveUp (g : Nat)
  | close
deriving DecidableEq, Repr

def wstep (s : W) : WAct → W
  | .write g data acc =>
    if getPC s.pcs g = .waiting then s
    else { s with desc := data, queued := if acc then s.queued + 1 else s.queued, pcs := (g, .waiting) :: s.pcs }
  | .send =>
    if s.queued = 0 then s
    else { s with queued := s.queued - 1, done := s.done + 1, wire := s.wire ++ s.desc }
  | .announce =>
    if s.done = 0 ∨ s.token = true then s
    else { s with done := s.done - 1, token := true }
  | .take g =>
    if getPC s.pcs g = .waiting ∧ s.token = true then { s with token := false, pcs := (g, .ok) :: s.pcs } else s
  | .giveUp g =>
    if getPC s.pcs g = .waiting ∧ s.closed = true then { s with pcs := (g, .failed) :: s.pcs } else s
  | .close => { s with closed := true }

def wrun (s : W) (as : List WAct) : W := as.foldl wstep s

theorem getPC_cons (g : Nat) (p : WPC) (l) : getPC ((g, p) :: l) g = p := by simp [getPC]

/-- **C95, a writer is not held for ever by a stream that was closed**: it can return, with an error; on an open stream it cannot. -/
theorem closed_stream_lets_go (s : W) (g : Nat) (hw : getPC s.pcs g = .waiting) :
    (s.closed = true → getPC (wstep s (.giveUp g)).pcs g = .failed) ∧ (s.closed = false → wstep s (.giveUp g) = s) ∧
    (wstep s .close).closed = true := by
  refine ⟨fun h => ?_, fun h => by simp [wstep, hw, h], rfl⟩
  simp [wstep, hw, h, getPC_cons]

/-- One write, alone on an idle stream, in the only order possible. -/
def oneWrite (g : Nat) (data : List UInt8) : List WAct := [.write g data true, .send, .announce, .take g]

/-- No send is in progress. -/
def Quiet (s : W) : Prop := s.queued = 0 ∧ s.done = 0 ∧ s.token = false ∧ ∀ g, getPC s.pcs g ≠ .waiting

theorem getPC_cons_ne {g g' : Nat} (h : g ≠ g') (p : WPC) (l) : getPC ((g', p) :: l) g = getPC l g := by
  simp [getPC, List.find?, beq_eq_false_iff_ne.2 (Ne.symm h)]

theorem oneWrite_run {s : W} (h : Quiet s) (g data) :
    Quiet (wrun s (oneWrite g data)) ∧ (wrun s (oneWrite g data)).wire = s.wire ++ data ∧
    getPC (wrun s (oneWrite g data)).pcs g = .ok := by
  obtain ⟨a, b, c, d⟩ := h
  have hd := d g
  simp only [oneWrite, wrun, List.foldl, wstep, hd, if_false, a, if_true, getPC_cons, b, c]
  simp [getPC_cons, a, b, c]
  refine ⟨rfl, rfl, rfl, ?_⟩
  intro g'
  by_cases e : g' = g
  · subst e; simp [getPC_cons]
  · simp [getPC_cons_ne e, d g']

/-- **Writes that do not overlap are sent whole and in order**, and each reports success. -/
theorem sequential_writes (ws : List (Nat × List UInt8)) :
    (wrun {} (ws.flatMap (fun w => oneWrite w.1 w.2))).wire = ws.flatMap Prod.snd := by
  suffices h : ∀ (ws : List (Nat × List UInt8)) (s : W), Quiet s →
      (wrun s (ws.flatMap (fun w => oneWrite w.1 w.2))).wire = s.wire ++ ws.flatMap Prod.snd by
    simpa using h ws {} ⟨rfl, rfl, rfl, by intro g; simp [getPC]⟩
  intro ws
  induction ws with
  | nil => intro s _; simp [wrun]
  | cons w ws ih =>
    intro s h
    obtain ⟨a, b, _⟩ := oneWrite_run h w.1 w.2
    have e : wrun s ((w :: ws).flatMap (fun w => oneWrite w.1 w.2))
        = wrun (wrun s (oneWrite w.1 w.2)) (ws.flatMap (fun w => oneWrite w.1 w.2)) := by
      simp [wrun, List.foldl_append]
    rw [e, ih _ a, b]
    simp

/-- Every send so far was accepted by the library. -/
def AllAccepted (as : List WAct) : Prop := ∀ a ∈ as, ∀ g d acc, a = .write g d acc → acc = true

theorem pending_aux (as : List WAct) : ∀ s : W, AllAccepted as →
    (∀ gs : List Nat, gs.Nodup → (∀ g ∈ gs, getPC s.pcs g = .waiting) → gs.length ≤ s.queued + s.done + s.token.toNat) →
    ∀ gs : List Nat, gs.Nodup → (∀ g ∈ gs, getPC (wrun s as).pcs g = .waiting) →
      gs.length ≤ (wrun s as).queued + (wrun s as).done + (wrun s as).token.toNat := by
  induction as with
  | nil => exact fun s _ h => h
  | cons a as ih =>
    intro s hacc h
    refine ih (wstep s a) (fun x hx => hacc x (List.mem_cons_of_mem _ hx)) ?_
    intro gs hnd hw
    cases a with
    | write g d acc =>
      cases hacc _ List.mem_cons_self g d acc rfl
      simp only [wstep] at hw ⊢
      split at hw
      · rename_i hg; rw [if_pos hg]; exact h gs hnd hw
      · rename_i hg
        rw [if_neg hg]
        dsimp only at hw ⊢
        have := h (gs.erase g) (hnd.erase g) (by
          intro g' hg'
          have hne : g' ≠ g := fun e => by subst e; exact absurd hg' (hnd.not_mem_erase)
          have := hw g' (List.mem_of_mem_erase hg')
          rwa [getPC_cons_ne hne] at this)
        have hl : gs.length ≤ (gs.erase g).length + 1 := by
          rw [List.length_erase]; split <;> omega
        simp only [if_true]
        omega
    | send =>
      simp only [wstep] at hw ⊢
      split at hw
      · rename_i hq; rw [if_pos hq]; exact h gs hnd hw
      · rename_i hq
        rw [if_neg hq]
        have := h gs hnd hw
        dsimp only
        omega
    | announce =>
      simp only [wstep] at hw ⊢
      split at hw
      · rename_i hq; rw [if_pos hq]; exact h gs hnd hw
      · rename_i hq
        rw [if_neg hq]
        have := h gs hnd hw
        dsimp only
        have ht : s.token = false := by
          cases hb : s.token
          · rfl
          · exact absurd (Or.inr hb) hq
        have hd : s.done ≠ 0 := fun e => hq (Or.inl e)
        rw [ht] at this
        simp at this ⊢
        omega
    | take g =>
      simp only [wstep] at hw ⊢
      split at hw
      · rename_i hg
        rw [if_pos hg]
        dsimp only at hw ⊢
        have hn : g ∉ gs := fun hm => by
          have := hw g hm
          rw [getPC_cons] at this
          cases this
        have := h (g :: gs) (List.nodup_cons.mpr ⟨hn, hnd⟩) (by
          intro g' hg'
          rcases List.mem_cons.mp hg' with rfl | hm
          · exact hg.1
          · have hne : g' ≠ g := fun e => hn (e ▸ hm)
            have := hw g' hm
            rwa [getPC_cons_ne hne] at this)
        rw [hg.2] at this
        simp at this ⊢
        omega
      · rename_i hg; rw [if_neg hg]; exact h gs hnd hw
    | giveUp g =>
      simp only [wstep] at hw ⊢
      split at hw
      · rename_i hg
        rw [if_pos hg]
        dsimp only at hw ⊢
        exact h gs hnd (by
          intro g' hm
          have hne : g' ≠ g := fun e => by
            subst e
            have := hw g' hm
            rw [getPC_cons] at this
            cases this
          have := hw g' hm
          rwa [getPC_cons_ne hne] at this)
      · rename_i hg; rw [if_neg hg]; exact h gs hnd hw
    | close => exact h gs hnd hw

/-- **C95, a writer that waits is waiting for something**: as long as the library accepts the sends, there are in every schedule at least as
many sends outstanding, completions to be announced or announced ones not taken as there are writers waiting: none of them is forgotten. -/
theorem no_completion_is_lost (as : List WAct) (ha : AllAccepted as) (gs : List Nat) (hnd : gs.Nodup)
    (hw : ∀ g ∈ gs, getPC (wrun {} as).pcs g = .waiting) :
    gs.length ≤ (wrun {} as).queued + (wrun {} as).done + (wrun {} as).token.toNat := by
  refine pending_aux as {} ha ?_ gs hnd hw
  intro gs _ hw
  cases gs with
  | nil => simp
  | cons g gs => have := hw g List.mem_cons_self; simp [getPC] at this

example : getPC (wrun {} [.write 1 [1] true, .write 2 [2] true, .send, .send, .announce]).pcs 1 = .waiting ∧
    getPC (wrun {} [.write 1 [1] true, .write 2 [2] true, .send, .send, .announce]).pcs 2 = .waiting ∧
    (wrun {} [.write 1 [1] true, .write 2 [2] true, .send, .send, .announce]).done = 1 := by decide

/-- For every schedule: while a single goroutine writes and the library accepts every send, what has been sent is what that
goroutine has written, up to the last write, which may be outstanding. -/
structure SInv (g : Nat) (s : W) (written : List UInt8) : Prop where
  other : ∀ g', g' ≠ g → getPC s.pcs g' ≠ .waiting
  busy : getPC s.pcs g = .waiting →
    (s.queued = 1 ∧ s.done = 0 ∧ s.token = false ∧ s.wire ++ s.desc = written) ∨
    (s.queued = 0 ∧ s.done = 1 ∧ s.token = false ∧ s.wire = written) ∨
    (s.queued = 0 ∧ s.done = 0 ∧ s.token = true ∧ s.wire = written)
  free : getPC s.pcs g ≠ .waiting → s.queued = 0 ∧ s.done = 0 ∧ s.token = false ∧ s.wire = written

/-- The data of the `write` steps that take effect. -/
def writtenBy : W → List WAct → List UInt8
  | _, [] => []
  | s, .write g d acc :: as =>
    (if getPC s.pcs g = .waiting then [] else d) ++ writtenBy (wstep s (.write g d acc)) as
  | s, a :: as => writtenBy (wstep s a) as

/-- only goroutine `g` writes, every send is accepted, and the stream is not closed -/
def Single (g : Nat) (as : List WAct) : Prop :=
  ∀ a ∈ as, (∀ g' d acc, a = .write g' d acc → g' = g ∧ acc = true) ∧ a ≠ .close

theorem single_aux (g : Nat) (as : List WAct) : ∀ (s : W) (w : List UInt8), s.closed = false → Single g as → SInv g s w →
    SInv g (wrun s as) (w ++ writtenBy s as) := by
  induction as with
  | nil => intro s w _ _ h; simpa [wrun, writtenBy] using h
  | cons a as ih =>
    intro s w hc hs h
    have hs' : Single g as := fun x hx => hs x (List.mem_cons_of_mem _ hx)
    have ha := hs a (by simp)
    show SInv g (wrun (wstep s a) as) _
    cases a with
    | write g' d acc =>
      obtain ⟨rfl, rfl⟩ := ha.1 g' d acc rfl
      simp only [writtenBy]
      rw [← List.append_assoc]
      apply ih _ _ _ hs'
      · simp only [wstep]
        split
        · simpa using h
        · rename_i hn
          obtain ⟨f1, f2, f3, f4⟩ := h.free hn
          refine ⟨?_, ?_, ?_⟩
          · intro g'' hne
            simp only [getPC_cons_ne hne]
            exact h.other g'' hne
          · intro _
            left
            simp [f1, f2, f3, f4]
          · intro hx
            simp [getPC_cons] at hx
      · simp only [wstep]; split <;> exact hc
    | send =>
      simp only [writtenBy]
      apply ih _ _ _ hs'
      · simp only [wstep]
        split
        · exact h
        · rename_i hq
          refine ⟨h.other, ?_, ?_⟩
          · intro hw
            rcases h.busy hw with ⟨a, b, c, d⟩ | ⟨a, b, c, d⟩ | ⟨a, b, c, d⟩
            · right; left; simp [a, b, c, d]
            · exact absurd a hq
            · exact absurd a hq
          · intro hw
            exact absurd (h.free hw).1 hq
      · simp only [wstep]; split <;> exact hc
    | announce =>
      simp only [writtenBy]
      apply ih _ _ _ hs'
      · simp only [wstep]
        split
        · exact h
        · rename_i hq
          simp only [not_or] at hq
          refine ⟨h.other, ?_, ?_⟩
          · intro hw
            rcases h.busy hw with ⟨a, b, c, d⟩ | ⟨a, b, c, d⟩ | ⟨a, b, c, d⟩
            · exact absurd b hq.1
            · right; right; simp [a, b, c, d]
            · exact absurd b hq.1
          · intro hw
            exact absurd (h.free hw).2.1 hq.1
      · simp only [wstep]; split <;> exact hc
    | take g' =>
      simp only [writtenBy]
      apply ih _ _ _ hs'
      · simp only [wstep]
        split
        · rename_i hq
          have hg : g' = g := by
            by_cases e : g' = g
            · exact e
            · exact absurd hq.1 (h.other g' e)
          subst hg
          refine ⟨?_, ?_, ?_⟩
          · intro g'' hne
            simp only [getPC_cons_ne hne]
            exact h.other g'' hne
          · intro hx; simp [getPC_cons] at hx
          · intro _
            rcases h.busy hq.1 with ⟨a, b, c, d⟩ | ⟨a, b, c, d⟩ | ⟨a, b, c, d⟩
            · rw [c] at hq; exact absurd hq.2 (by simp)
            · rw [c] at hq; exact absurd hq.2 (by simp)
            · exact ⟨a, b, rfl, d⟩
        · exact h
      · simp only [wstep]; split <;> exact hc
    | giveUp g' =>
      simp only [writtenBy]
      apply ih _ _ _ hs'
      · have e : wstep s (.giveUp g') = s := by simp [wstep, hc]
        rw [e]; exact h
      · have e : wstep s (.giveUp g') = s := by simp [wstep, hc]
        rw [e]; exact hc
    | close => exact absurd rfl ha.2

/-- **One writer, every schedule of the library**: what has been sent is a prefix of what was written, and all of it whenever no
`Write` is outstanding.
C95. Missing from the claim: several writers, where it is false (`concurrent_writes_corrupt`). -/
theorem single_writer_partial (g : Nat) (as : List WAct) (h : Single g as) :
    (wrun {} as).wire <+: writtenBy {} as ∧
    (getPC (wrun {} as).pcs g ≠ .waiting → (wrun {} as).wire = writtenBy {} as) := by
  have hi : SInv g {} [] := ⟨by intro g' _; simp [getPC], by simp [getPC], by simp⟩
  have := single_aux g as {} [] rfl h hi
  simp only [List.nil_append] at this
  refine ⟨?_, fun hw => (this.free hw).2.2.2⟩
  by_cases hw : getPC (wrun {} as).pcs g = .waiting
  · rcases this.busy hw with ⟨_, _, _, d⟩ | ⟨_, _, _, d⟩ | ⟨_, _, _, d⟩
    · rw [← d]; exact List.prefix_append _ _
    · rw [d]; exact List.prefix_refl _
    · rw [d]; exact List.prefix_refl _
  · rw [(this.free hw).2.2.2]; exact List.prefix_refl _

/-- (violation) Two tasks write to the tunnel at the same time: the second one's bytes are sent twice, the first one's not at
all, and both writes report success. For every pair of payloads. -/
theorem concurrent_writes_corrupt (a b : List UInt8) :
    let s := wrun {} [.write 1 a true, .write 2 b true, .send, .announce, .take 1, .send, .announce, .take 2]
    s.wire = b ++ b ∧ getPC s.pcs 1 = .ok ∧ getPC s.pcs 2 = .ok := by
  simp [wrun, wstep, getPC]

/-- (violation) Even undamaged, the completion of one write can be taken by the other: a write returns success before its data
was sent. -/
theorem success_before_sent (a b : List UInt8) :
    let s := wrun {} [.write 1 a true, .send, .write 2 b true, .announce, .take 2]
    s.wire = a ∧ s.queued = 1 ∧ getPC s.pcs 2 = .ok ∧ getPC s.pcs 1 = .waiting := by
  simp [wrun, wstep, getPC]

theorem refused_aux (g : Nat) (as : List WAct) : ∀ s : W, s.queued = 0 → s.done = 0 → s.token = false → s.closed = false →
    getPC s.pcs g = .waiting → (∀ a ∈ as, (∀ g' d acc, a ≠ .write g' d acc) ∧ a ≠ .close) →
    getPC (wrun s as).pcs g = .waiting := by
  induction as with
  | nil => intro s _ _ _ _ h _; exact h
  | cons a as ih =>
    intro s h1 h2 h3 h4 h5 hn
    have ha := hn a (by simp)
    have hn' := fun x hx => hn x (List.mem_cons_of_mem _ hx)
    have e : wstep s a = s := by
      cases a with
      | write g' d acc => exact absurd rfl (ha.1 g' d acc)
      | send => simp [wstep, h1]
      | announce => simp [wstep, h2]
      | take g' => simp [wstep, h3]
      | giveUp g' => simp [wstep, h4]
      | close => exact absurd rfl ha.2
    show getPC (wrun (wstep s a) as).pcs g = .waiting
    rw [e]; exact ih s h1 h2 h3 h4 h5 hn'

/-- (violation) A send the library refuses is not reported: `Write` waits until the stream is closed, however long. -/
theorem refused_send_blocks (g : Nat) (data : List UInt8) (as : List WAct)
    (h : ∀ a ∈ as, (∀ g' d acc, a ≠ .write g' d acc) ∧ a ≠ .close) :
    getPC (wrun {} (.write g data false :: as)).pcs g = .waiting := by
  apply refused_aux g as (wstep {} (.write g data false)) _ _ _ _ _ h <;> simp [wstep, getPC]

/-! ## Witnesses -/

example : (rrun {} [.announce [1, 2, 3], .put, .read 2, .complete, .announce [4], .read 2, .complete, .put, .read 5]).got
    = [1, 2, 3, 4] := by decide
example : Single 1 [.write 1 [1, 2] true, .send, .announce, .take 1, .write 1 [3] true] := by
  intro a ha
  simp at ha
  rcases ha with rfl | rfl | rfl | rfl | rfl <;> simp
example : (wrun {} [.write 1 [1, 2] true, .send, .announce, .take 1, .write 1 [3] true]).wire = [1, 2] ∧
    writtenBy {} [.write 1 [1, 2] true, .send, .announce, .take 1, .write 1 [3] true] = [1, 2, 3] := by decide

end Verif.Quic.Stream
