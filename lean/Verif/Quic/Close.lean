import Verif.Common
set_option linter.unusedSimpArgs false
set_option linter.unusedVariables false
/-!
# C155: what closing a tunnel closes (libcs/conn/conn.go:76-88, libcs/conn/quicConn.go:21-24, libcs/conn/msquic/msquicConn.go:15-22,
libcs/server/conn.go:820-896)

`CloseWithValue` calls `Close` of the transport once. `QuicConnection` embeds `quic.Connection`, which has no `Close`, and
`quic.Stream`, whose `Close` ends the sending direction of the stream only: the receiving direction and the connection stay.
`MsquicConn.Close` deletes the stream and the connection; a TCP or TLS connection is closed as a whole.

The server's side of one tunnel: its reader handles one frame after the other, out of its buffer, which it fills from the transport.
Simplified: a frame is a number that is handled at once, or a ping, and is never cut; `SendPingSignal` on an open tunnel succeeds;
`SetReadDeadline` on a closed connection fails (on a deleted BBR connection it uses released memory, C95).
-/
namespace Verif.Quic.Close

inductive Kind where
  | tcp | bbr | quic
deriving DecidableEq, Repr

inductive Frame where
  | data (x : Nat)
  | ping
deriving DecidableEq, Repr

structure Tun where
  kind : Kind
  /-- `config.Timeout` is positive -/
  timed : Bool := true
  /-- in the buffer of the reader -/
  buf : List Frame := []
  /-- received, not yet read -/
  recv : List Frame := []
  /-- the peer has ended its sending direction -/
  fin : Bool := false
  /-- `Closing` is set and `CloseOnce` was called -/
  closing : Bool := false
  /-- `readLoop` has ended -/
  ended : Bool := false
  /-- the transport's connection is gone -/
  freed : Bool := false
  /-- frames of data that `readLoop` handled, in order -/
  handled : List Nat := []
  /-- pings answered -/
  pongs : Nat := 0
deriving DecidableEq, Repr

inductive Act where
  /-- the peer sends a frame -/
  | send (f : Frame)
  /-- the peer ends its sending direction -/
  | fin
  /-- anybody on this side closes the tunnel -/
  | close
  /-- `readLoop` goes on if it can; if it has to fill its buffer, it gets `n + 1` frames, or all -/
  | read (n : Nat)
  /-- the read deadline passes (libcs/server/conn.go:834-840) -/
  | deadline
  /-- nothing came from the peer's QUIC stack for the idle timeout, or the peer closed the QUIC connection -/
  | lost
deriving DecidableEq, Repr

/-- libcs/conn/conn.go:78-88 `CloseWithValue`, `CloseOnce` on the three transports. -/
def closeTun (s : Tun) : Tun :=
  if s.closing then s
  else match s.kind with
    | .quic => { s with closing := true }
    | _ => { s with closing := true, freed := true }

/-- The end of `readLoop`; the tunnel is closed behind it (libcs/server/conn.go:180, `handle`'s deferred `Close`). -/
def endLoop (s : Tun) : Tun := closeTun { s with ended := true }

/-- One pass of `readLoop`, libcs/server/conn.go:833-896, or the filling of its buffer. Setting the deadline fails on a connection that is
gone (834-840), and so does reading from it; a ping is answered, which fails on a stream that is closed for sending (851-868). -/
def readOne (s : Tun) (n : Nat) : Tun :=
  if s.ended then s
  else if s.freed ∧ s.timed then endLoop s
  else match s.buf with
    | .ping :: fs => if s.closing then endLoop { s with buf := fs } else { s with buf := fs, pongs := s.pongs + 1 }
    | .data x :: fs => { s with buf := fs, handled := s.handled ++ [x] }
    | [] =>
      if s.freed then endLoop s
      else if s.recv = [] then (if s.fin then endLoop s else s)
      else { s with buf := s.recv.take (n + 1), recv := s.recv.drop (n + 1) }

def step (s : Tun) : Act → Tun
  | .send f => if s.fin ∨ s.freed then s else { s with recv := s.recv ++ [f] }
  | .fin => { s with fin := true }
  | .close => closeTun s
  | .read n => readOne s n
  | .deadline => if s.ended ∨ s.buf ≠ [] ∨ s.recv ≠ [] then s else endLoop s
  | .lost => { s with freed := true }

def run (s : Tun) (as : List Act) : Tun := as.foldl step s

/-! ## Specification -/

/-- The data among what the peer sent. -/
def dataOf : List Act → List Nat
  | [] => []
  | .send (.data x) :: as => x :: dataOf as
  | _ :: as => dataOf as

def dataIn : List Frame → List Nat
  | [] => []
  | .data x :: fs => x :: dataIn fs
  | .ping :: fs => dataIn fs

/-! ## Proofs -/

theorem closeTun_same (s : Tun) : (closeTun s).kind = s.kind ∧ (closeTun s).handled = s.handled ∧ (closeTun s).recv = s.recv ∧
    (closeTun s).closing = true ∧ (s.freed = true → (closeTun s).freed = true) ∧ (s.ended = (closeTun s).ended) ∧
    (closeTun s).fin = s.fin ∧ (closeTun s).buf = s.buf ∧ (closeTun s).timed = s.timed ∧
    (s.kind = .quic → (closeTun s).freed = s.freed) := by
  unfold closeTun
  by_cases h : s.closing = true
  · rw [if_pos h]; exact ⟨rfl, rfl, rfl, h, fun x => x, rfl, rfl, rfl, rfl, fun _ => rfl⟩
  · rw [if_neg h]; cases s.kind <;> simp

/-- What a step other than `close` may do to a tunnel, case by case. -/
inductive Stepped (s : Tun) : Tun → Prop
  | same : Stepped s s
  | recv (f : Frame) : s.fin = false → s.freed = false → Stepped s { s with recv := s.recv ++ [f] }
  | fin : Stepped s { s with fin := true }
  | lost : Stepped s { s with freed := true }
  | ended : Stepped s (endLoop s)
  | badPing (fs : List Frame) : s.buf = .ping :: fs → s.closing = true → Stepped s (endLoop { s with buf := fs })
  | ping (fs : List Frame) : s.buf = .ping :: fs → (s.freed = true → s.timed = false) →
      Stepped s { s with buf := fs, pongs := s.pongs + 1 }
  | data (x : Nat) (fs : List Frame) : s.buf = .data x :: fs → (s.freed = true → s.timed = false) →
      Stepped s { s with buf := fs, handled := s.handled ++ [x] }
  | fill (n : Nat) : s.buf = [] → s.freed = false → Stepped s { s with buf := s.recv.take n, recv := s.recv.drop n }
  | close : Stepped s (closeTun s)

theorem stepped (s : Tun) (a : Act) : Stepped s (step s a) := by
  cases a with
  | send f =>
    simp only [step]
    split
    · exact .same
    · rename_i h
      exact .recv f (by cases hf : s.fin <;> simp_all) (by cases hf : s.freed <;> simp_all)
  | fin => exact .fin
  | close => exact .close
  | lost => exact .lost
  | deadline =>
    simp only [step]
    split
    · exact .same
    · exact .ended
  | read n =>
    simp only [step, readOne]
    split
    · exact .same
    · split
      · exact .ended
      · rename_i h
        have hft : s.freed = true → s.timed = false := by
          intro hf; cases ht : s.timed <;> simp_all
        split
        · rename_i fs hb
          split
          · exact .badPing fs hb (by assumption)
          · exact .ping fs hb hft
        · rename_i x fs hb
          exact .data x fs hb hft
        · rename_i hb
          split
          · exact .ended
          · split
            · split
              · exact .ended
              · exact .same
            · rename_i hf _
              exact .fill (n + 1) hb (by simpa using hf)

theorem endLoop_same (s : Tun) : (endLoop s).kind = s.kind ∧ (endLoop s).handled = s.handled ∧ (endLoop s).recv = s.recv ∧
    (s.freed = true → (endLoop s).freed = true) ∧ (endLoop s).fin = s.fin ∧ (endLoop s).buf = s.buf ∧ (endLoop s).timed = s.timed ∧
    (s.kind = .quic → (endLoop s).freed = s.freed) ∧ (endLoop s).ended = true := by
  have c := closeTun_same { s with ended := true }
  obtain ⟨c1, c2, c3, c4, c5, c6, c7, c8, c9, c10⟩ := c
  exact ⟨c1, c2, c3, c5, c7, c8, c9, c10, c6.symm⟩

theorem dataIn_append (l m : List Frame) : dataIn (l ++ m) = dataIn l ++ dataIn m := by
  induction l with
  | nil => rfl
  | cons g l ih => cases g <;> simp [dataIn, ih]

theorem step_keeps (s : Tun) (a : Act) : (step s a).kind = s.kind ∧ (step s a).timed = s.timed := by
  have h := stepped s a
  generalize step s a = t at h ⊢
  cases h with
  | ended => exact ⟨(endLoop_same s).1, (endLoop_same s).2.2.2.2.2.2.1⟩
  | badPing fs => exact ⟨(endLoop_same { s with buf := fs }).1, (endLoop_same { s with buf := fs }).2.2.2.2.2.2.1⟩
  | close => exact ⟨(closeTun_same s).1, (closeTun_same s).2.2.2.2.2.2.2.2.1⟩
  | _ => exact ⟨rfl, rfl⟩

theorem step_freed (s : Tun) (a : Act) (h : s.freed = true) : (step s a).freed = true ∧
    (s.timed = true → (step s a).handled = s.handled) ∧
    ∃ d, (step s a).handled = s.handled ++ d ∧ dataIn s.buf = d ++ dataIn (step s a).buf := by
  have hs := stepped s a
  generalize step s a = t at hs ⊢
  cases hs with
  | same => exact ⟨h, fun _ => rfl, [], by simp, by simp⟩
  | fin => exact ⟨h, fun _ => rfl, [], by simp, by simp⟩
  | lost => exact ⟨rfl, fun _ => rfl, [], by simp, by simp⟩
  | recv f h1 h2 => rw [h2] at h; cases h
  | fill n h1 h2 => rw [h2] at h; cases h
  | ended =>
    obtain ⟨c1, c2, c3, c4, c5, c6, c7, c8, c9⟩ := endLoop_same s
    exact ⟨c4 h, fun _ => c2, [], by simp [c2], by simp [c6]⟩
  | badPing fs hb hc =>
    obtain ⟨c1, c2, c3, c4, c5, c6, c7, c8, c9⟩ := endLoop_same { s with buf := fs }
    exact ⟨c4 h, fun _ => c2, [], by simp [c2], by rw [c6, hb]; rfl⟩
  | ping fs hb hc => exact ⟨h, fun _ => rfl, [], by simp, by rw [hb]; rfl⟩
  | data x fs hb hc => exact ⟨h, fun ht => absurd (hc h) (by rw [ht]; simp), [x], rfl, by rw [hb]; rfl⟩
  | close =>
    have c := closeTun_same s
    exact ⟨c.2.2.2.2.1 h, fun _ => c.2.1, [], by simp [c.2.1], by simp [c.2.2.2.2.2.2.2.1]⟩

theorem run_freed : ∀ (as : List Act) (s : Tun), s.freed = true → (run s as).freed = true ∧
    (s.timed = true → (run s as).handled = s.handled) ∧ ∃ d rest, (run s as).handled = s.handled ++ d ∧ dataIn s.buf = d ++ rest := by
  intro as
  induction as with
  | nil => intro s h; exact ⟨h, fun _ => rfl, [], dataIn s.buf, by simp [run], by simp⟩
  | cons a as ih =>
    intro s h
    obtain ⟨h1, h2, d, h3, h4⟩ := step_freed s a h
    obtain ⟨i1, i2, d', rest, i3, i4⟩ := ih (step s a) h1
    refine ⟨i1, fun ht => (i2 (by rw [(step_keeps s a).2, ht])).trans (h2 ht), d ++ d', rest, ?_, ?_⟩
    · show (run (step s a) as).handled = _
      rw [i3, h3]; simp
    · rw [h4, i4]; simp

/-- On a whole-connection transport a closed tunnel's connection is gone. -/
def Whole (s : Tun) : Prop := s.closing = true → s.kind ≠ .quic → s.freed = true

theorem closeTun_whole (s : Tun) (h : Whole s) : Whole (closeTun s) := by
  unfold closeTun
  by_cases hc : s.closing = true
  · rw [if_pos hc]; exact h
  · rw [if_neg hc]
    intro _ hk
    cases hkind : s.kind <;> simp [hkind] at hk ⊢

theorem step_whole (s : Tun) (a : Act) (h : Whole s) : Whole (step s a) := by
  have hs := stepped s a
  generalize step s a = t at hs ⊢
  cases hs with
  | lost => intro _ _; rfl
  | ended => exact closeTun_whole { s with ended := true } h
  | badPing fs hb hc => exact closeTun_whole { s with buf := fs, ended := true } h
  | close => exact closeTun_whole s h
  | _ => exact h

theorem run_whole : ∀ (as : List Act) (s : Tun), Whole s → Whole (run s as) := by
  intro as
  induction as with
  | nil => intro s h; exact h
  | cons a as ih => intro s h; exact ih _ (step_whole s a h)

/-- **A closed tunnel over TCP, TLS or BBR is closed**: from the close on its connection is gone, and nothing that the peer sends is
handled any more, whatever happened before and happens after; with a timeout nothing at all is handled any more, without one at most
what the reader had in its buffer. Partial: false over QUIC (`quic_reads_on`, `quic_never_released`). -/
theorem closed_is_closed_partial (k : Kind) (hk : k ≠ .quic) (timed : Bool) (before after : List Act) :
    let s := run { kind := k, timed := timed } before
    let t := run { kind := k, timed := timed } (before ++ Act.close :: after)
    t.freed = true ∧ (timed = true → t.handled = s.handled) ∧
    ∃ d rest, t.handled = s.handled ++ d ∧ dataIn s.buf = d ++ rest := by
  intro s t
  have hkind : ∀ (as : List Act) (u : Tun), (run u as).kind = u.kind ∧ (run u as).timed = u.timed := by
    intro as
    induction as with
    | nil => intro u; exact ⟨rfl, rfl⟩
    | cons a as ih =>
      intro u
      exact ⟨(ih (step u a)).1.trans (step_keeps u a).1, (ih (step u a)).2.trans (step_keeps u a).2⟩
  have hs := hkind before { kind := k, timed := timed }
  have ht : t = run (closeTun s) after := by
    show List.foldl step _ (before ++ Act.close :: after) = _
    rw [List.foldl_append]; rfl
  have hw : Whole (closeTun s) := closeTun_whole s (run_whole before { kind := k, timed := timed } (fun h => by simp at h))
  obtain ⟨c1, c2, c3, c4, c5, c6, c7, c8, c9, c10⟩ := closeTun_same s
  have hf : (closeTun s).freed = true := hw c4 (by rw [c1]; show (run _ before).kind ≠ _; rw [hs.1]; exact hk)
  obtain ⟨r1, r2, d, rest, r3, r4⟩ := run_freed after (closeTun s) hf
  rw [ht]
  refine ⟨r1, fun h => (r2 ?_).trans c2, d, rest, by rw [r3, c2], by rw [← r4, c8]⟩
  rw [c9]; show (run _ before).timed = true; rw [hs.2, h]

/-- What is handled or waits, after one step. -/
def held (s : Tun) : List Nat := s.handled ++ dataIn s.buf ++ dataIn s.recv

theorem held_other (s : Tun) (a : Act) (ha : ∀ f, a ≠ .send f) : held (step s a) = held s := by
  have hc : ∀ t : Tun, held (closeTun t) = held t := by
    intro t
    obtain ⟨c1, c2, c3, c4, c5, c6, c7, c8, c9, c10⟩ := closeTun_same t
    simp only [held, c2, c3, c8]
  have he : ∀ t : Tun, held (endLoop t) = held t := fun t => hc { t with ended := true }
  cases a with
  | send f => exact absurd rfl (ha f)
  | fin => rfl
  | lost => rfl
  | close => exact hc s
  | deadline => simp only [step]; split; rfl; exact he s
  | read n =>
    simp only [step, readOne]
    split
    · rfl
    · split
      · exact he s
      · split
        · rename_i fs hb
          split
          · refine (he _).trans ?_
            simp [held, hb, dataIn]
          · simp [held, hb, dataIn]
        · rename_i x fs hb
          simp [held, hb, dataIn]
        · rename_i hb
          split
          · exact he s
          · split
            · split
              · exact he s
              · rfl
            · simp only [held, hb, dataIn, List.append_nil, List.append_assoc, ← dataIn_append, List.take_append_drop]

theorem step_over (s : Tun) (a : Act) (h : s.fin = true ∨ s.freed = true) : (step s a).fin = true ∨ (step s a).freed = true := by
  rcases h with h | h
  · left
    have hs := stepped s a
    generalize step s a = t at hs ⊢
    cases hs with
    | ended => rw [(endLoop_same s).2.2.2.2.1]; exact h
    | badPing fs => rw [(endLoop_same { s with buf := fs }).2.2.2.2.1]; exact h
    | close => rw [(closeTun_same s).2.2.2.2.2.2.1]; exact h
    | fin => rfl
    | _ => exact h
  · exact Or.inr (step_freed s a h).1

theorem dataOf_append (as bs : List Act) : dataOf (as ++ bs) = dataOf as ++ dataOf bs := by
  induction as with
  | nil => rfl
  | cons a as ih =>
    cases a with
    | send f => cases f <;> simp [dataOf, ih]
    | _ => simp [dataOf, ih]

/-- Nothing is handled that the peer did not send, nothing twice, and in order. -/
theorem handled_prefix (k : Kind) (timed : Bool) (as : List Act) :
    ∃ rest, dataOf as = (run { kind := k, timed := timed } as).handled ++ rest := by
  have key : ∀ (as before : List Act) (s : Tun),
      (∃ rest, dataOf before = held s ++ rest ∧ (rest ≠ [] → s.fin = true ∨ s.freed = true)) →
      ∃ rest, dataOf (before ++ as) = held (run s as) ++ rest := by
    intro as
    induction as with
    | nil => intro before s ⟨rest, h, _⟩; exact ⟨rest, by rw [List.append_nil]; exact h⟩
    | cons a as ih =>
      intro before s ⟨rest, h, hr⟩
      have hn : before ++ a :: as = (before ++ [a]) ++ as := by simp
      rw [hn]
      refine ih (before ++ [a]) (step s a) ?_
      rw [dataOf_append, h]
      by_cases hx : ∃ f, a = .send f
      · obtain ⟨f, rfl⟩ := hx
        by_cases ho : s.fin = true ∨ s.freed = true
        · refine ⟨rest ++ dataOf [.send f], ?_, fun _ => step_over s _ ho⟩
          simp only [step, if_pos ho]; simp
        · have : rest = [] := by
            by_cases hrr : rest = []
            · exact hrr
            · exact absurd (hr hrr) ho
          subst this
          refine ⟨[], ?_, by simp⟩
          simp only [step, if_neg ho, held, dataIn_append]
          cases f <;> simp [dataIn, dataOf]
      · have hs : ∀ f, a ≠ .send f := fun f hf => hx ⟨f, hf⟩
        have hd : dataOf [a] = [] := by
          cases a <;> first | rfl | exact absurd rfl (hs _)
        refine ⟨rest, ?_, fun h2 => step_over s a (hr h2)⟩
        rw [held_other s a hs, hd]; simp
  obtain ⟨rest, h⟩ := key as [] { kind := k, timed := timed } ⟨[], rfl, by simp⟩
  exact ⟨_, by rw [List.nil_append] at h; rw [h, held, List.append_assoc, List.append_assoc]⟩

/-- **Over QUIC a closed tunnel is read on**: whatever data the client sends after the server closed the tunnel is handled like before. -/
theorem quic_reads_on (s : Tun) (hk : s.kind = .quic) (he : s.ended = false) (hf : s.freed = false) (hn : s.fin = false)
    (hb : s.buf = []) (hr : s.recv = []) (xs : List Nat) :
    (run s (Act.close :: xs.flatMap (fun x => [Act.send (.data x), Act.read 0, Act.read 0]))).handled = s.handled ++ xs ∧
    (run s (Act.close :: xs.flatMap (fun x => [Act.send (.data x), Act.read 0, Act.read 0]))).ended = false := by
  have key : ∀ (xs : List Nat) (t : Tun), t.ended = false → t.freed = false → t.fin = false → t.buf = [] → t.recv = [] →
      (run t (xs.flatMap (fun x => [Act.send (.data x), Act.read 0, Act.read 0]))).handled = t.handled ++ xs ∧
      (run t (xs.flatMap (fun x => [Act.send (.data x), Act.read 0, Act.read 0]))).ended = false := by
    intro xs
    induction xs with
    | nil => intro t h1 _ _ _ _; simp [run, h1]
    | cons x xs ih =>
      intro t h1 h2 h3 h4 h5
      have e : step (step (step t (.send (.data x))) (.read 0)) (.read 0) = { t with handled := t.handled ++ [x] } := by
        cases t; simp_all [step, readOne]
      obtain ⟨i1, i2⟩ := ih { t with handled := t.handled ++ [x] } h1 h2 h3 h4 h5
      have e2 : run t ((x :: xs).flatMap (fun x => [Act.send (.data x), Act.read 0, Act.read 0])) =
          run { t with handled := t.handled ++ [x] } (xs.flatMap (fun x => [Act.send (.data x), Act.read 0, Act.read 0])) := by
        rw [← e]; rfl
      rw [e2]
      exact ⟨by rw [i1]; simp, i2⟩
  obtain ⟨c1, c2, c3, c4, c5, c6, c7, c8, c9, c10⟩ := closeTun_same s
  obtain ⟨k1, k2⟩ := key xs (closeTun s) (by rw [← c6]; exact he) (by rw [c10 hk]; exact hf) (by rw [c7]; exact hn)
    (by rw [c8]; exact hb) (by rw [c3]; exact hr)
  exact ⟨by rw [← c2]; exact k1, k2⟩

/-- **Over QUIC the server never releases a connection**: without the peer's silence or its leave, no close, end of the reader or deadline
does; a refused client keeps its connection as long as it likes. -/
theorem quic_never_released (timed : Bool) (as : List Act) (h : Act.lost ∉ as) :
    (run { kind := .quic, timed := timed } as).freed = false := by
  have key : ∀ (as : List Act) (s : Tun), s.kind = .quic → s.freed = false → Act.lost ∉ as → (run s as).freed = false := by
    intro as
    induction as with
    | nil => intro s _ hf _; exact hf
    | cons a as ih =>
      intro s hk hf hl
      refine ih (step s a) (by rw [(step_keeps s a).1, hk]) ?_ (fun hx => hl (by simp [hx]))
      have hE : ∀ t : Tun, t.kind = .quic → (endLoop t).freed = t.freed := fun t ht => (endLoop_same t).2.2.2.2.2.2.2.1 ht
      cases a with
      | lost => exact absurd (by simp) hl
      | send f => simp only [step]; split <;> exact hf
      | fin => exact hf
      | close => exact ((closeTun_same s).2.2.2.2.2.2.2.2.2 hk).trans hf
      | deadline => simp only [step]; split; exact hf; exact (hE s hk).trans hf
      | read n =>
        simp only [step, readOne]
        (repeat' split) <;> first | exact hf | exact (hE s hk).trans hf | exact (hE _ (by exact hk)).trans hf
  exact key as _ rfl rfl h

/-- A closed QUIC tunnel's reader does end with the next ping, with the end of the client's direction, and at the read deadline. -/
theorem quic_reader_ends (s : Tun) (hc : s.closing = true) (hb : s.buf = []) (hr : s.recv = []) :
    (step s .deadline).ended = true ∧ (s.fin = true → (step s (.read 0)).ended = true) ∧
    (s.fin = false → s.freed = false → (run s [.send .ping, .read 0, .read 0]).ended = true ∧
      (run s [.send .ping, .read 0, .read 0]).pongs = s.pongs) := by
  have hE : ∀ t : Tun, (endLoop t).ended = true := fun t => (endLoop_same t).2.2.2.2.2.2.2.2
  refine ⟨?_, fun hf => ?_, fun hf hg => ?_⟩
  · simp only [step, hr, hb]
    by_cases he : s.ended = true
    · simp [he]
    · simp [he, hE]
  · simp only [step, readOne, hr, hb]
    by_cases he : s.ended = true
    · simp [he]
    · by_cases hg : s.freed = true <;> by_cases ht : s.timed = true <;> simp [he, hg, ht, hf, hE]
  · by_cases he : s.ended = true
    · simp [run, step, readOne, he, hf, hg]
    · simp [run, step, readOne, he, hg, hf, hr, hb, hc, endLoop, closeTun]

/-! ## Concrete cases -/

/-- The client sends 1, the server handles it and closes, the client sends 2: handled over QUIC only. -/
example : (run { kind := .tcp } [.send (.data 1), .read 0, .read 0, .close, .send (.data 2), .read 0, .read 0]).handled = [1] ∧
    (run { kind := .bbr } [.send (.data 1), .read 0, .read 0, .close, .send (.data 2), .read 0, .read 0]).handled = [1] ∧
    (run { kind := .quic } [.send (.data 1), .read 0, .read 0, .close, .send (.data 2), .read 0, .read 0]).handled = [1, 2] := by
  decide +kernel

/-- Two frames in the buffer when the tunnel is closed: without a timeout the second is handled, too. -/
example : (run { kind := .tcp, timed := false } [.send (.data 1), .send (.data 2), .read 1, .read 0, .close, .read 0, .read 0]).handled = [1, 2] ∧
    (run { kind := .tcp } [.send (.data 1), .send (.data 2), .read 1, .read 0, .close, .read 0, .read 0]).handled = [1] := by
  decide +kernel

/-- A ping before and one after the close. -/
example : let s := run { kind := .quic } [.send .ping, .read 0, .read 0, .close, .send .ping, .read 0, .read 0]
    s.pongs = 1 ∧ s.ended = true ∧ s.freed = false := by decide +kernel

end Verif.Quic.Close
