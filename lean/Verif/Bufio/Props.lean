import Verif.Bufio.Lemmas
set_option linter.unusedSimpArgs false
/-!
# Property theorems: buffered reader (C08) and limited reader (C09)
-/
namespace Verif.Bufio
open Verif

/-- Link between the reader's state and the cursor of the specification. -/
structure Rel (S : Bytes) (cap : Nat) (s : Rd) (pos : Nat) (tainted : Bool) : Prop where
  inv : Cap s
  cap : s.cap = cap
  stream : s.data ++ bytesOf s.src = S.drop pos
  le : pos ≤ S.length
  last : tainted = false → ∀ c, s.last = some c → ∃ p, pos = p + 1 ∧ S[p]? = some c

theorem At_of_stream {S : Bytes} {pos : Nat} {bs rest : Bytes} (h : bs ++ rest = S.drop pos) : At S pos bs := by
  unfold At; rw [← h]; simp

theorem drop_of_stream {S : Bytes} {pos : Nat} {bs rest : Bytes} (h : bs ++ rest = S.drop pos) :
    rest = S.drop (pos + bs.length) ∧ (pos ≤ S.length → pos + bs.length ≤ S.length) := by
  constructor
  · rw [← List.drop_drop, ← h]; simp
  · intro hp
    have := congrArg List.length h
    simp at this; omega

theorem getLast_of_stream {S : Bytes} {pos : Nat} {bs rest : Bytes} {c : UInt8} (h : bs ++ rest = S.drop pos)
    (hc : bs.getLast? = some c) : ∃ p, pos + bs.length = p + 1 ∧ S[p]? = some c := by
  have hne : bs ≠ [] := by intro hh; simp [hh] at hc
  have hl : 0 < bs.length := List.length_pos_iff.mpr hne
  refine ⟨pos + bs.length - 1, by omega, ?_⟩
  have h1 : (S.drop pos)[bs.length - 1]? = some c := by
    rw [← h, List.getElem?_append_left (by omega), ← List.getLast?_eq_getElem?]; exact hc
  rw [List.getElem?_drop] at h1
  rw [← h1]; congr 1; omega

/-- One call preserves the link, taint tracked as in `NoUnreadAfterDiscard`. -/
theorem step_spec (S : Bytes) (cap : Nat) (op : Op) (s : Rd) (hc : Cap s) (hcap : s.cap = cap) :
    ∃ o s', step op s = some (o, s') ∧ Cap s' ∧ s'.cap = cap ∧
      ∀ pos t ops os, Rel S cap s pos t → NoUnreadAfterDiscard t (op :: ops) (o :: os) →
        ∃ pos' t', Allowed S cap op o pos pos' ∧ Rel S cap s' pos' t' ∧ NoUnreadAfterDiscard t' ops os := by
  cases op with
  | peek n =>
    obtain ⟨bs, e, s', h1, h2, h3, h4, h5, h6⟩ := peek_spec n s hc
    refine ⟨.bytes bs e, s', by simp [step, h1], h2.inv, h2.cap.trans hcap, ?_⟩
    intro pos t ops os hr hn
    have hst : s'.data ++ bytesOf s'.src = S.drop pos := by rw [h2.stream]; exact hr.stream
    refine ⟨pos, false, ⟨rfl, ?_, ?_, h5, by rw [← hcap]; exact h6⟩, ⟨h2.inv, h2.cap.trans hcap, hst, hr.le, ?_⟩, hn⟩
    · apply At_of_stream (rest := s'.data.drop bs.length ++ bytesOf s'.src)
      rw [← hst, ← List.append_assoc]
      congr 1
      conv => rhs; rw [← List.take_append_drop bs.length s'.data]
      rw [← h3]
    · rw [← hcap]; exact h4
    · intro _ c hl
      rw [h2.last] at hl; simp at hl
  | discard n =>
    obtain ⟨k, e, s', bs, h1, h2, h3, h4, h5, h6⟩ := discard_spec n s hc
    refine ⟨.count k e, s', by simp [step, h1], h2.inv, h2.cap.trans hcap, ?_⟩
    intro pos t ops os hr hn
    have hst : bs ++ (s'.data ++ bytesOf s'.src) = S.drop pos := by rw [← h2.stream]; exact hr.stream
    have hd := drop_of_stream hst
    rw [h4] at hd
    refine ⟨pos + k, t || decide (0 < k), ⟨rfl, hd.2 hr.le, h5, h6⟩, ⟨h2.inv, h2.cap.trans hcap, hd.1, hd.2 hr.le, ?_⟩, hn⟩
    intro ht c hl
    simp at ht
    obtain ⟨ht, rfl⟩ := ht
    rw [h3] at hl
    exact hr.last ht c hl
  | read m =>
    obtain ⟨bs, e, s', h1, h2, h3, h4⟩ := read_spec m s hc
    refine ⟨.bytes bs e, s', by simp [step, h1], h2.inv, h2.cap.trans hcap, ?_⟩
    intro pos t ops os hr hn
    have hst : bs ++ (s'.data ++ bytesOf s'.src) = S.drop pos := by rw [← h2.stream]; exact hr.stream
    have hd := drop_of_stream hst
    refine ⟨pos + bs.length, t && bs.isEmpty, ⟨rfl, At_of_stream hst, h4⟩, ⟨h2.inv, h2.cap.trans hcap, hd.1, hd.2 hr.le, ?_⟩, hn⟩
    intro ht c hl
    by_cases hb : bs = []
    · subst hb
      rw [h3.1 rfl] at hl
      simp at ht
      simpa using hr.last ht c hl
    · rw [h3.2 hb] at hl
      exact getLast_of_stream hst hl
  | readByte =>
    obtain ⟨res, s', h1, h2⟩ := readByte_spec s hc
    cases res with
    | ok c =>
      simp only at h2
      refine ⟨.byte (.ok c), s', by simp [step, h1], h2.1.inv, h2.1.cap.trans hcap, ?_⟩
      intro pos t ops os hr hn
      have hst : [c] ++ (s'.data ++ bytesOf s'.src) = S.drop pos := by rw [← h2.1.stream]; exact hr.stream
      have hd := drop_of_stream hst
      refine ⟨pos + 1, false, ⟨rfl, At_of_stream hst⟩, ⟨h2.1.inv, h2.1.cap.trans hcap, hd.1, hd.2 hr.le, ?_⟩, hn⟩
      intro _ c' hl
      rw [h2.2] at hl
      exact getLast_of_stream hst (by simpa using hl)
    | error e =>
      simp only at h2
      refine ⟨.byte (.error e), s', by simp [step, h1], h2.1.inv, h2.1.cap.trans hcap, ?_⟩
      intro pos t ops os hr hn
      have hst : s'.data ++ bytesOf s'.src = S.drop pos := by
        have := h2.1.stream
        rw [hr.stream] at this
        simpa using this.symm
      refine ⟨pos, t, rfl, ⟨h2.1.inv, h2.1.cap.trans hcap, hst, hr.le, ?_⟩, hn⟩
      intro ht c' hl
      rw [h2.2] at hl
      exact hr.last ht c' hl
  | unreadByte =>
    obtain ⟨e, s', h1, h2, h3, h4⟩ := unreadByte_spec s hc
    refine ⟨.unread e, s', by simp [step, h1], h2, h3.trans hcap, ?_⟩
    intro pos t ops os hr hn
    obtain ⟨ht, hn⟩ : t = false ∧ NoUnreadAfterDiscard t ops os := hn
    cases e with
    | some e =>
      simp only at h4
      subst h4
      exact ⟨pos, t, rfl, hr, hn⟩
    | none =>
      simp only at h4
      obtain ⟨c, g1, g2, g3⟩ := h4
      obtain ⟨p, rfl, hp⟩ := hr.last ht c g1
      refine ⟨p, t, rfl, ⟨h2, h3.trans hcap, ?_, by have := hr.le; omega, ?_⟩, hn⟩
      · rw [g3, hr.stream]
        have hlt : p < S.length := by have := hr.le; omega
        rw [List.drop_eq_getElem_cons hlt]
        rw [List.getElem?_eq_getElem hlt] at hp
        simp at hp
        rw [hp]
      · intro _ c' hl; rw [g2] at hl; simp at hl
  | readSlice d =>
    obtain ⟨bs, e, s', h1, h2, h3, h4⟩ := readSlice_spec d s hc
    refine ⟨.bytes bs e, s', by simp [step, h1], h2.inv, h2.cap.trans hcap, ?_⟩
    intro pos t ops os hr hn
    have hst : bs ++ (s'.data ++ bytesOf s'.src) = S.drop pos := by rw [← h2.stream]; exact hr.stream
    have hd := drop_of_stream hst
    refine ⟨pos + bs.length, t && bs.isEmpty, ⟨rfl, At_of_stream hst, h4⟩, ⟨h2.inv, h2.cap.trans hcap, hd.1, hd.2 hr.le, ?_⟩, hn⟩
    intro ht c hl
    by_cases hb : bs = []
    · subst hb
      rw [h3.1 rfl] at hl
      simp at ht
      simpa using hr.last ht c hl
    · rw [h3.2 hb] at hl
      exact getLast_of_stream hst hl
  | buffered =>
    refine ⟨.count s.data.length none, s, rfl, hc, hcap, ?_⟩
    intro pos t ops os hr hn
    refine ⟨pos, t, ⟨rfl, ?_, ?_, rfl⟩, hr, hn⟩
    · have := hc.2; omega
    · have := (drop_of_stream (bs := s.data) hr.stream).2 hr.le
      exact this

theorem run_spec (S : Bytes) (cap : Nat) (ops : List Op) (s : Rd) (hc : Cap s) (hcap : s.cap = cap) :
    ∃ os s', run ops s = some (os, s') ∧
      ∀ pos t, Rel S cap s pos t → NoUnreadAfterDiscard t ops os →
        ∃ pos', AllowedSeq S cap ops os pos pos' ∧ s'.data ++ bytesOf s'.src = S.drop pos' ∧ pos' ≤ S.length := by
  induction ops generalizing s with
  | nil =>
    refine ⟨[], s, rfl, ?_⟩
    intro pos t hr _
    exact ⟨pos, rfl, hr.stream, hr.le⟩
  | cons op ops ih =>
    obtain ⟨o, s1, h1, h2, h3, h4⟩ := step_spec S cap op s hc hcap
    obtain ⟨os, s2, g1, g2⟩ := ih s1 h2 h3
    refine ⟨o :: os, s2, by simp [run, h1, g1], ?_⟩
    intro pos t hr hn
    obtain ⟨p, t', a1, a2, a3⟩ := h4 pos t ops os hr hn
    obtain ⟨pos', b1, b2, b3⟩ := g2 p t' a2 a3
    exact ⟨pos', ⟨p, a1, b1⟩, b2, b3⟩

/-- **C08** (every operation sequence returns): no call on a reader, whatever the underlying reader
does, panics or loops forever. -/
theorem reader_never_panics (cap : Nat) (hcap : 0 < cap) (src : Script) (ops : List Op) :
    ∃ os s', run ops (Rd.new cap src) = some (os, s') := by
  obtain ⟨os, s', h, _⟩ := run_spec (bytesOf src) cap ops (Rd.new cap src) ⟨hcap, by simp [Rd.new]⟩ rfl
  exact ⟨os, s', h⟩

/-- **C08** (partial: `UnreadByte` right after a `Discard` is excluded, see `unread_after_discard`).
For every stream, chunking, error schedule and sequence of calls, the results are those of a cursor
moving over one byte sequence, and the bytes still to come are exactly the rest of it. -/
theorem reader_is_stream_partial (cap : Nat) (hcap : 0 < cap) (src : Script) (ops : List Op)
    (os : List Out) (s' : Rd) (h : run ops (Rd.new cap src) = some (os, s'))
    (hn : NoUnreadAfterDiscard false ops os) :
    ∃ pos, AllowedSeq (bytesOf src) cap ops os 0 pos ∧
      s'.data ++ bytesOf s'.src = (bytesOf src).drop pos ∧ pos ≤ (bytesOf src).length := by
  obtain ⟨os1, s1, h1, h2⟩ := run_spec (bytesOf src) cap ops (Rd.new cap src) ⟨hcap, by simp [Rd.new]⟩ rfl
  rw [h] at h1
  simp at h1
  obtain ⟨rfl, rfl⟩ := h1
  exact h2 0 false ⟨⟨hcap, by simp [Rd.new]⟩, rfl, by simp [Rd.new], by omega, by simp [Rd.new]⟩ hn

/-- Non-vacuity: a run with a split line, a late error and an unread byte. -/
example : let src : Script := [([1, 2], none), ([], none), ([3, 10], some .eof), ([7], none)]
    run [.peek 3, .readByte, .unreadByte, .readSlice 10, .buffered, .read 4] (Rd.new 16 src) =
      some ([.bytes [1, 2, 3] none, .byte (.ok 1), .unread none, .bytes [1, 2, 3, 10] none, .count 0 none,
        .bytes [] (some .eof)], ⟨16, 4, [], none, some 10, [([7], none)]⟩) ∧
    NoUnreadAfterDiscard false [.peek 3, .readByte, .unreadByte, .readSlice 10, .buffered, .read 4]
      [.bytes [1, 2, 3] none, .byte (.ok 1), .unread none, .bytes [1, 2, 3, 10] none, .count 0 none,
        .bytes [] (some .eof)] := by
  refine ⟨by decide, ?_⟩
  simp [NoUnreadAfterDiscard]

/-- **C08** is false without that exclusion: reading `a`, discarding `b` and unreading a byte puts `a`
where `b` stood, so the reader then delivers `a c` although the stream is `a b c`. -/
theorem unread_after_discard :
    ∃ os s', run [.readByte, .discard 1, .unreadByte, .read 2] (Rd.new 16 [([97, 98, 99], none)]) =
        some (os, s') ∧ os = [.byte (.ok 97), .count 1 none, .unread none, .bytes [97, 99] none] ∧
      ¬ ∃ pos, AllowedSeq [97, 98, 99] 16 [.readByte, .discard 1, .unreadByte, .read 2] os 0 pos := by
  refine ⟨_, ⟨16, 3, [], none, some 99, []⟩, by decide, rfl, ?_⟩
  rintro ⟨pos, p1, ⟨rfl, _⟩, p2, ⟨rfl, _⟩, p3, h3, p4, ⟨rfl, h4, _⟩, _⟩
  simp [Allowed] at h3
  have : p3 = 1 := by omega
  subst this
  simp [At] at h4

/-- **C08** (`UnreadByte`): after a `Read` that returned something, whether through the buffer or past it, the last byte can be put back,
and it is the next one again. -/
theorem unread_after_read (m : Nat) (s s1 : Rd) (bs : Bytes) (e : Option Err) (h : read m s = ((bs, e), s1)) (hb : bs ≠ []) :
    ∃ s2, unreadByte s1 = (none, s2) ∧ s2.data.head? = bs.getLast? ∧
      s2.data.drop 1 ++ bytesOf s2.src = s1.data ++ bytesOf s1.src := by
  have key : ∀ c, s1.last = some c → bs.getLast? = some c → (s1.r = 0 → s1.data = []) → ∃ s2, unreadByte s1 = (none, s2) ∧
      s2.data.head? = bs.getLast? ∧ s2.data.drop 1 ++ bytesOf s2.src = s1.data ++ bytesOf s1.src := by
    intro c h1 h2 h3
    refine ⟨{ s1 with r := s1.r - 1, data := c :: s1.data, last := none }, ?_, by simp [h2], by simp⟩
    unfold unreadByte
    rw [h1]
    dsimp only
    rw [if_neg]
    rintro ⟨h4, h5⟩
    rw [h3 h4] at h5
    simp at h5
  have last_some : ∀ (l : Bytes), l ≠ [] → ∃ c, l.getLast? = some c := by
    intro l hl
    exact ⟨l.getLast hl, List.getLast?_eq_some_getLast hl⟩
  obtain ⟨c, hc⟩ := last_some bs hb
  unfold read at h
  split at h
  · split at h <;> simp at h <;> exact absurd h.1.1 hb
  · rename_i hm
    split at h
    · rename_i hd
      split at h
      · simp at h; exact absurd h.1.1 hb
      · split at h
        · simp only [Prod.mk.injEq] at h
          obtain ⟨⟨h1, _⟩, h2⟩ := h
          rw [h1] at h2
          have hlen : bs.length > 0 := List.length_pos_iff.mpr hb
          apply key c
          · rw [← h2]; simp [hlen, hc]
          · exact hc
          · intro _; rw [← h2]; exact List.length_eq_zero_iff.mp hd
        · simp only at h
          split at h
          · simp at h; exact absurd h.1.1 hb
          · rename_i hz
            simp only [Prod.mk.injEq] at h
            obtain ⟨⟨h1, _⟩, h2⟩ := h
            apply key c
            · rw [← h2]; simp [h1, hc]
            · exact hc
            · intro hr
              rw [← h2] at hr
              dsimp only at hr
              omega
    · rename_i hz
      simp only [Prod.mk.injEq] at h
      obtain ⟨⟨h1, _⟩, h2⟩ := h
      apply key c
      · rw [← h2]; simp [h1, hc]
      · exact hc
      · intro hr
        rw [← h2] at hr
        dsimp only at hr
        omega

/-- A case for `unread_after_read`: a read past an empty buffer. -/
example : read 20 (Rd.new 16 [([97, 98], none)]) = (([97, 98], none), ⟨16, 0, [], none, some 98, []⟩) := by decide

/-- **C08** (`Read` with no room): it takes nothing; with nothing buffered it reports the error that is due, once. -/
theorem read_nothing (s : Rd) :
    (s.data ≠ [] → read 0 s = (([], none), s)) ∧ (s.data = [] → read 0 s = (([], s.err), { s with err := none })) := by
  constructor
  · intro h
    have : s.data.length > 0 := List.length_pos_iff.mpr h
    simp [read, this]
  · intro h
    simp [read, h]

/-- **C08** (the reader delivers what is there): if the underlying reader neither fails nor returns
empty reads, peeking at most a buffer's worth of available bytes succeeds with exactly those bytes. -/
theorem peek_complete (cap : Nat) (hcap : 0 < cap) (src : Script) (hcl : Clean src) (n : Nat) (hn : n ≤ cap)
    (hlen : n ≤ (bytesOf src).length) :
    ∃ s', peek n (Rd.new cap src) = some (((bytesOf src).take n, none), s') := by
  have hc : Cap (Rd.new cap src) := ⟨hcap, by simp [Rd.new]⟩
  obtain ⟨s1, h1, h2, h3⟩ := peekLoop_total (cap + 2) n { Rd.new cap src with last := none } hc (Or.inl (by
    simp [Rd.new]))
  have h4 := peekLoop_clean _ n _ s1 hc hcl rfl hn (by simpa [Rd.new] using hlen) h1
  refine ⟨s1, ?_⟩
  unfold peek
  have h1' : peekLoop ((Rd.new cap src).cap + 2) n { Rd.new cap src with last := none } = some s1 := h1
  rw [h1']
  have hcap1 : s1.cap = cap := h2.cap
  simp only
  rw [if_neg (by omega), if_neg (by omega)]
  have hst := h2.stream
  simp [Rd.new] at hst
  rw [← hst, List.take_append_of_le_length h4.1]

example : ∃ src, Clean src ∧ 3 ≤ (bytesOf src).length := ⟨[([1, 2], none), ([3, 4], none)], by simp [Clean], by decide⟩

/-- **C09**: for every frame length `N`, buffered prefix, stream, chunking and writer, copying the
frame body returns; the bytes handed to the writer are the next bytes of the stream, in order, at
most `N` of them; what remains of the stream starts right after them; and the remaining count is
`N` minus what was delivered. If it returns without error and bytes are still owed, everything the
reader had was delivered (the connection ended). -/
theorem copy_frame (l : Lim) (w : WScript) (hcap : 0 < l.rd.cap) (hfit : l.rd.r + l.rd.data.length ≤ l.rd.cap) :
    ∃ bs e l' w', l.writeTo w = some (bs, e, l', w') ∧
      l.rd.data ++ bytesOf l.rd.src = bs ++ (l'.rd.data ++ bytesOf l'.rd.src) ∧
      bs.length ≤ l.n ∧ l'.n = l.n - bs.length ∧
      (e = .nil → l'.n = 0 ∨ l'.rd.data = []) := by
  obtain ⟨bs, e, l', w', h1, h2⟩ := writeTo_spec l w ⟨hcap, hfit⟩
  exact ⟨bs, e, l', w', h1, h2.adv.stream, by have := h2.count; omega, by have := h2.count; omega, h2.short⟩

/-- **C09** (exact transfer): if the connection does not fail and holds at least `N` more bytes, and
the writer accepts, exactly the next `N` bytes are delivered, without error. -/
theorem copy_frame_exact (l : Lim) (hcap : 0 < l.rd.cap) (hfit : l.rd.r + l.rd.data.length ≤ l.rd.cap)
    (hcl : Clean l.rd.src) (he : l.rd.err = none) (hlen : l.n ≤ (l.rd.data ++ bytesOf l.rd.src).length) :
    ∃ l' w', l.writeTo [] = some ((l.rd.data ++ bytesOf l.rd.src).take l.n, .nil, l', w') ∧
      l'.rd.data ++ bytesOf l'.rd.src = (l.rd.data ++ bytesOf l.rd.src).drop l.n := by
  obtain ⟨bs, e, l', w', h1, h2⟩ := writeTo_spec l [] ⟨hcap, hfit⟩
  obtain ⟨h3, rfl⟩ := writeTo_clean l l' bs e w' ⟨hcap, hfit⟩ hcl he hlen h1
  have hb : bs.length = l.n := by have := h2.count; omega
  refine ⟨l', w', ?_, ?_⟩
  · rw [h1, h2.adv.stream, ← hb]; simp
  · rw [h2.adv.stream, ← hb]; simp

/-- Non-vacuity: 5 of 6 bytes over two chunks with two bytes already buffered. -/
example : ∃ l' w', (Lim.mk ⟨16, 3, [1, 2], none, none, [([3, 4], none), ([5, 6], none)]⟩ 5).writeTo [] =
    some ([1, 2, 3, 4, 5], .nil, l', w') ∧ l'.rd.data = [6] ∧ l'.n = 0 :=
  ⟨⟨⟨16, 1, [6], none, none, []⟩, 0⟩, [], by decide⟩

/-- **C09** for `Read` through the limited reader: never more than `N` bytes, always the next ones; after them the end
of the stream, and before that the bytes that are there, or the error that is pending. -/
theorem limited_read (l : Lim) (m : Nat) (hcap : 0 < l.rd.cap) (hfit : l.rd.r + l.rd.data.length ≤ l.rd.cap) :
    ∃ bs e l', l.read m = ((bs, e), l') ∧ bs.length ≤ m ∧ bs.length ≤ l.n ∧ l'.n = l.n - bs.length ∧
      l.rd.data ++ bytesOf l.rd.src = bs ++ (l'.rd.data ++ bytesOf l'.rd.src) ∧
      (l.n = 0 → e = some .eof ∧ l' = l) ∧
      (0 < l.n → 0 < l.rd.data.length → bs = l.rd.data.take (min m l.n) ∧ e = none) ∧
      (0 < l.n → l.rd.data.length = 0 → ∀ x, l.rd.err = some x → e = some x) := by
  obtain ⟨bs, e, l', h1, h2, h3, h4⟩ := limRead_spec m l ⟨hcap, hfit⟩
  refine ⟨bs, e, l', h1, h4, by omega, by omega, h2.stream, ?_, ?_, ?_⟩
  · intro h0
    simp only [Lim.read, h0, if_true, Prod.mk.injEq] at h1
    exact ⟨h1.1.2.symm, h1.2.symm⟩
  · intro h0 hd
    have hn : l.n ≠ 0 := by omega
    have hd' : l.rd.data.length ≠ 0 := by omega
    simp only [Lim.read, hn, if_false, Bufio.read] at h1
    by_cases hm : min m l.n = 0
    · rw [hm] at h1 ⊢
      simp only [if_true, hd, gt_iff_lt, Prod.mk.injEq] at h1
      exact ⟨by rw [← h1.1.1]; simp, h1.1.2.symm⟩
    · simp only [hm, if_false, hd', Prod.mk.injEq] at h1
      exact ⟨h1.1.1.symm, h1.1.2.symm⟩
  · intro h0 hd x hx
    have hn : l.n ≠ 0 := by omega
    simp only [Lim.read, hn, if_false, Bufio.read, hd, hx, gt_iff_lt, Nat.lt_irrefl, if_true, ne_eq, reduceCtorEq,
      not_false_eq_true, ite_self, Prod.mk.injEq] at h1
    exact h1.1.2.symm

/-- **C09** for `ReadSlice` through the limited reader. -/
theorem limited_readSlice (l : Lim) (d : UInt8) (hcap : 0 < l.rd.cap) (hfit : l.rd.r + l.rd.data.length ≤ l.rd.cap) :
    ∃ bs e l', l.readSlice d = some ((bs, e), l') ∧ bs.length ≤ l.n ∧ l'.n = l.n - bs.length ∧
      l.rd.data ++ bytesOf l.rd.src = bs ++ (l'.rd.data ++ bytesOf l'.rd.src) ∧
      (match e with
      | none => ∃ line, bs = line ++ [d] ∧ d ∉ line
      | some _ => d ∉ bs) := by
  obtain ⟨bs, e, l', h1, h2, h3, h4⟩ := limReadSlice_spec d l ⟨hcap, hfit⟩
  exact ⟨bs, e, l', h1, by omega, by omega, h2.stream, h4⟩

end Verif.Bufio
