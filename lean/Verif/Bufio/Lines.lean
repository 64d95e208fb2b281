import Verif.Bufio.Props
set_option linter.unusedSimpArgs false
set_option linter.unusedVariables false
/-!
# Whole lines: `ReadBytes`, `ReadString` and `ReadLine` (C08)

These are built on `ReadSlice`. `ReadString` reads the messages of the P2P process (libcs/client/peerproc.go:107-117).
-/
namespace Verif.Bufio
open Verif

/-- libcs/bufio/bufio.go:430-455 `collectFragments`, with the joining of libcs/bufio/bufio.go:462-474 `ReadBytes` and 482-494 `ReadString`:
`acc` holds the full buffers. Fuel: every turn but the last takes at least one byte off the stream (`readBytes_spec`). -/
def collect : Nat → UInt8 → Bytes → Rd → Option ((Bytes × Option Err) × Rd)
  | 0, _, _, _ => none
  | f + 1, d, acc, s =>
    match readSlice d s with
    | none => none
    | some ((frag, none), s') => some ((acc ++ frag, none), s')
    | some ((frag, some .bufferFull), s') => collect f d (acc ++ frag) s'
    | some ((frag, some e), s') => some ((acc ++ frag, some e), s')

/-- libcs/bufio/bufio.go:462-474 `ReadBytes(delim)`, 482-494 `ReadString(delim)`. -/
def readBytes (d : UInt8) (s : Rd) : Option ((Bytes × Option Err) × Rd) :=
  collect (s.data.length + (bytesOf s.src).length + 1) d [] s

/-- libcs/bufio/bufio.go:388-423 `ReadLine`: the line, `isPrefix`, the error; 13 is `\r`, 10 is `\n`.
`none` for the panic of libcs/bufio/bufio.go:397. -/
def readLine (s : Rd) : Option ((Bytes × Bool × Option Err) × Rd) :=
  match readSlice 10 s with
  | none => none
  | some ((line, some .bufferFull), s') =>
    if line.getLast? = some 13 then
      if s'.r = 0 then none
      else some ((line.dropLast, true, none), { s' with r := s'.r - 1, data := 13 :: s'.data })
    else some ((line, true, none), s')
  | some ((line, e), s') =>
    if line = [] then some (([], false, e), s')
    else if line.getLast? = some 10 then
      if line.dropLast.getLast? = some 13 then some ((line.dropLast.dropLast, false, none), s')
      else some ((line.dropLast, false, none), s')
    else some ((line, false, none), s')

/-- The underlying reader never returns bufio's own `ErrBufferFull`. -/
def NB (s : Rd) : Prop := s.err ≠ some .bufferFull ∧ ∀ c ∈ s.src, c.2 ≠ some .bufferFull

theorem srcRead_nb {src : Script} (h : ∀ c ∈ src, c.2 ≠ some Err.bufferFull) (m : Nat) :
    (srcRead src m).2.1 ≠ some .bufferFull ∧ ∀ c ∈ (srcRead src m).2.2, c.2 ≠ some .bufferFull := by
  cases src with
  | nil => simp [srcRead]
  | cons c rest =>
    obtain ⟨bs, e⟩ := c
    have h1 := h (bs, e) (by simp)
    have h2 := fun c hc => h c (List.mem_cons_of_mem _ hc)
    simp only [srcRead]
    split
    · exact ⟨h1, h2⟩
    · refine ⟨by simp, ?_⟩
      intro c hc
      rcases List.mem_cons.1 hc with rfl | hc
      · exact h1
      · exact h2 c hc

theorem fillLoop_nb (i : Nat) : ∀ s : Rd, NB s → NB (fillLoop i s) := by
  induction i with
  | zero => intro s h; exact ⟨by simp [fillLoop], h.2⟩
  | succ i ih =>
    intro s h
    have hs := srcRead_nb h.2 (s.cap - s.data.length)
    simp only [fillLoop]
    generalize srcRead s.src (s.cap - s.data.length) = q at hs ⊢
    obtain ⟨bs, e, src'⟩ := q
    cases e with
    | some e => exact ⟨hs.1, hs.2⟩
    | none =>
      simp only
      split
      · exact ⟨h.1, hs.2⟩
      · exact ih _ ⟨h.1, hs.2⟩

theorem fill_nb {s s' : Rd} (h : NB s) (hf : fill s = some s') : NB s' := by
  simp only [fill] at hf
  split at hf
  · cases hf
  · simp only [Option.some.injEq] at hf
    rw [← hf]
    exact fillLoop_nb 100 _ h

theorem readSliceLoop_full (f : Nat) (d : UInt8) : ∀ (st : Nat) (s : Rd) (bs : Bytes) (e : Option Err) (s' : Rd), Cap s → NB s →
    readSliceLoop f d st s = some ((bs, e), s') →
    NB s' ∧ s'.cap = s.cap ∧ (e = some .bufferFull → bs.length = s.cap ∧ s'.data = [] ∧ s'.r = s.cap ∧ s'.err = none) := by
  induction f with
  | zero => intro st s bs e s' _ _ h; simp [readSliceLoop] at h
  | succ f ih =>
    intro st s bs e s' hc hn h
    simp only [readSliceLoop] at h
    split at h
    · simp only [Option.some.injEq, Prod.mk.injEq] at h
      obtain ⟨⟨rfl, rfl⟩, rfl⟩ := h
      exact ⟨hn, rfl, by simp⟩
    · split at h
      · rename_i e' he
        simp only [Option.some.injEq, Prod.mk.injEq] at h
        obtain ⟨⟨rfl, rfl⟩, rfl⟩ := h
        refine ⟨⟨by simp, hn.2⟩, rfl, ?_⟩
        intro hx
        exact absurd (he.trans hx) hn.1
      · rename_i he
        split at h
        · rename_i hl
          simp only [Option.some.injEq, Prod.mk.injEq] at h
          obtain ⟨⟨rfl, rfl⟩, rfl⟩ := h
          have := hc.2
          refine ⟨hn, rfl, ?_⟩
          intro _
          refine ⟨by omega, rfl, ?_, he⟩
          simp only; omega
        · rename_i hl
          obtain ⟨s1, bs1, e1, hp⟩ := fill_spec s (by omega)
          rw [e1] at h
          simp only at h
          have hx := hp.ext hc.1
          have := ih _ s1 bs e s' hx.inv (fill_nb hn e1) h
          refine ⟨this.1, this.2.1.trans hp.cap, ?_⟩
          intro he'
          have := this.2.2 he'
          rw [hp.cap] at this
          exact this

theorem readSlice_full {d : UInt8} {s s' : Rd} {bs : Bytes} {e : Option Err} (hc : Cap s) (hn : NB s)
    (h : readSlice d s = some ((bs, e), s')) :
    NB s' ∧ (e = some .bufferFull → bs.length = s.cap ∧ s'.data = [] ∧ s'.r = s.cap ∧ s'.err = none) := by
  unfold readSlice at h
  cases hr : readSliceLoop (s.cap + 2) d 0 s with
  | none => rw [hr] at h; simp at h
  | some q =>
    obtain ⟨⟨bs1, e1⟩, s1⟩ := q
    rw [hr] at h
    simp only [Option.map_some, Option.some.injEq, Prod.mk.injEq] at h
    obtain ⟨⟨rfl, rfl⟩, rfl⟩ := h
    have := readSliceLoop_full _ d 0 s bs1 e1 s1 hc hn hr
    refine ⟨?_, ?_⟩
    · unfold setLast; split <;> exact this.1
    · intro he
      have h2 := this.2.2 he
      unfold setLast; split <;> exact h2

theorem collect_spec (f : Nat) (d : UInt8) : ∀ (acc : Bytes) (s : Rd), Cap s → NB s →
    s.data.length + (bytesOf s.src).length < f → d ∉ acc →
    ∃ bs e s', collect f d acc s = some ((acc ++ bs, e), s') ∧ Adv s s' bs ∧ NB s' ∧
      (match e with
      | none => ∃ l, acc ++ bs = l ++ [d] ∧ d ∉ l
      | some e => d ∉ acc ++ bs ∧ e ≠ .bufferFull) := by
  induction f with
  | zero => intro acc s _ _ h; omega
  | succ f ih =>
    intro acc s hc hn hf hacc
    obtain ⟨bs, e, s', h1, h2, h3, h4⟩ := readSlice_spec d s hc
    have hfull := readSlice_full hc hn h1
    simp only [collect, h1]
    cases e with
    | none =>
      simp only at h4
      obtain ⟨l, rfl, hl⟩ := h4
      exact ⟨l ++ [d], none, s', rfl, h2, hfull.1, acc ++ l, by simp, by simp [hacc, hl]⟩
    | some e =>
      simp only at h4
      by_cases he : e = .bufferFull
      · subst he
        obtain ⟨g1, g2, g3, g4⟩ := hfull.2 rfl
        have hlen := congrArg List.length h2.stream
        simp only [List.length_append] at hlen
        have hcap := hc.1
        obtain ⟨bs2, e2, s2, k1, k2, k3, k4⟩ := ih (acc ++ bs) s' h2.inv hfull.1 (by omega) (by simp [hacc, h4])
        refine ⟨bs ++ bs2, e2, s2, ?_, h2.trans k2, k3, ?_⟩
        · rw [← List.append_assoc]; exact k1
        · rw [← List.append_assoc]; exact k4
      · refine ⟨bs, some e, s', ?_, h2, hfull.1, by simp [hacc, h4], he⟩
        cases e <;> simp_all

/-- **`ReadBytes` and `ReadString`**, for every capacity, chunking and error schedule: the call returns; what it returns is what
comes next in the stream, the rest stays; without an error it ends with the delimiter, which occurs nowhere else in it; with
an error it contains no delimiter, and the error is the underlying reader's (a full buffer is not one). -/
theorem readBytes_spec (d : UInt8) (s : Rd) (hc : Cap s) (hn : NB s) :
    ∃ bs e s', readBytes d s = some ((bs, e), s') ∧
      s.data ++ bytesOf s.src = bs ++ (s'.data ++ bytesOf s'.src) ∧ Cap s' ∧ NB s' ∧
      (match e with
      | none => ∃ l, bs = l ++ [d] ∧ d ∉ l
      | some e => d ∉ bs ∧ e ≠ .bufferFull) := by
  obtain ⟨bs, e, s', h1, h2, h3, h4⟩ := collect_spec _ d [] s hc hn (Nat.lt_succ_self _) (by simp)
  simp only [List.nil_append] at h1 h4
  exact ⟨bs, e, s', h1, h2.stream, h2.inv, h3, h4⟩

/-- So the line returned does not depend on the capacity or the chunking: the first line of the stream. -/
theorem readBytes_first_line (d : UInt8) (s : Rd) (hc : Cap s) (hn : NB s) (l rest : Bytes) (hl : d ∉ l)
    (hS : s.data ++ bytesOf s.src = l ++ d :: rest) (bs : Bytes) (s' : Rd)
    (h : readBytes d s = some ((bs, none), s')) :
    bs = l ++ [d] ∧ s'.data ++ bytesOf s'.src = rest := by
  obtain ⟨bs1, e1, s1, h1, h2, h3, h4, h5⟩ := readBytes_spec d s hc hn
  rw [h] at h1
  simp only [Option.some.injEq, Prod.mk.injEq] at h1
  obtain ⟨⟨rfl, rfl⟩, rfl⟩ := h1
  simp only at h5
  obtain ⟨l', rfl, hl'⟩ := h5
  rw [hS] at h2
  simp only [List.append_assoc, List.singleton_append] at h2
  have key : ∀ (l l' : Bytes) (r r' : Bytes), d ∉ l → d ∉ l' → l ++ d :: r = l' ++ d :: r' → l = l' ∧ r = r' := by
    intro l
    induction l with
    | nil =>
      intro l' r r' _ hl' he
      cases l' with
      | nil => simpa using he
      | cons a l' =>
        simp only [List.nil_append, List.cons_append, List.cons.injEq] at he
        exact absurd (by simp [← he.1]) hl'
    | cons a l ih =>
      intro l' r r' hl hl' he
      cases l' with
      | nil =>
        simp only [List.nil_append, List.cons_append, List.cons.injEq] at he
        exact absurd (by simp [he.1]) hl
      | cons a' l' =>
        simp only [List.cons_append, List.cons.injEq] at he
        have := ih l' r r' (fun h => hl (List.mem_cons_of_mem _ h)) (fun h => hl' (List.mem_cons_of_mem _ h)) he.2
        exact ⟨by rw [he.1, this.1], this.2⟩
  obtain ⟨k1, k2⟩ := key _ _ _ _ hl hl' h2
  exact ⟨by rw [k1], k2.symm⟩

/-! ### A reader whose source has no errors but its end -/

/-- No errors before the end, no empty reads. -/
def NoErr (s : Rd) : Prop := Clean s.src ∧ (s.err = none ∨ (s.err = some .eof ∧ s.src = []))

theorem fillLoop_succ (i : Nat) (s : Rd) : fillLoop (i + 1) s =
    (let (bs, e, src') := srcRead s.src (s.cap - s.data.length)
    let s' := { s with data := s.data ++ bs, src := src' }
    match e with
    | some e => { s' with err := some e }
    | none => if bs.length > 0 then s' else fillLoop i s') := rfl

theorem fill_noErr {s s' : Rd} (hcap : s.data.length < s.cap) (h : NoErr s) (he : s.err = none) (hf : fill s = some s') : NoErr s' := by
  simp only [fill] at hf
  rw [if_neg (by omega)] at hf
  simp only [Option.some.injEq] at hf
  rw [← hf]
  rw [fillLoop_succ 99]
  cases hs : s.src with
  | nil => simp only [srcRead]; exact ⟨by simp [Clean], Or.inr ⟨rfl, rfl⟩⟩
  | cons c rest =>
    obtain ⟨bs, e⟩ := c
    have hc := h.1 (bs, e) (by simp [hs])
    have hrest : Clean rest := fun c hc => h.1 c (by simp [hs, hc])
    obtain ⟨hb, rfl⟩ := hc
    have hpos : 0 < bs.length := List.length_pos_iff.2 hb
    by_cases hl : bs.length ≤ s.cap - s.data.length
    · simp only [srcRead, if_pos hl]
      rw [if_pos (by omega)]
      exact ⟨hrest, Or.inl he⟩
    · simp only [srcRead, if_neg hl]
      rw [if_pos (by rw [List.length_take]; omega)]
      refine ⟨?_, Or.inl he⟩
      intro c hc
      rcases List.mem_cons.1 hc with rfl | hc
      · refine ⟨?_, rfl⟩
        intro hx
        have := congrArg List.length hx
        simp only [List.length_drop, List.length_nil] at this
        omega
      · exact hrest c hc

theorem readSliceLoop_noErr (f : Nat) (d : UInt8) : ∀ (st : Nat) (s : Rd) (bs : Bytes) (e : Option Err) (s' : Rd), Cap s → NoErr s →
    readSliceLoop f d st s = some ((bs, e), s') →
    NoErr s' ∧ (e = none ∨ e = some .bufferFull ∨ (e = some .eof ∧ s'.data = [] ∧ s'.src = [])) := by
  induction f with
  | zero => intro st s bs e s' _ _ h; simp [readSliceLoop] at h
  | succ f ih =>
    intro st s bs e s' hc hn h
    simp only [readSliceLoop] at h
    split at h
    · simp only [Option.some.injEq, Prod.mk.injEq] at h
      obtain ⟨⟨rfl, rfl⟩, rfl⟩ := h
      exact ⟨hn, Or.inl rfl⟩
    · split at h
      · rename_i e' he
        simp only [Option.some.injEq, Prod.mk.injEq] at h
        obtain ⟨⟨rfl, rfl⟩, rfl⟩ := h
        rcases hn.2 with h0 | ⟨h0, h1⟩
        · rw [h0] at he; cases he
        · rw [h0] at he
          simp only [Option.some.injEq] at he
          subst he
          exact ⟨⟨hn.1, Or.inl rfl⟩, Or.inr (Or.inr ⟨rfl, rfl, h1⟩)⟩
      · rename_i he
        split at h
        · simp only [Option.some.injEq, Prod.mk.injEq] at h
          obtain ⟨⟨rfl, rfl⟩, rfl⟩ := h
          exact ⟨hn, Or.inr (Or.inl rfl)⟩
        · rename_i hl
          obtain ⟨s1, bs1, e1, hp⟩ := fill_spec s (by omega)
          rw [e1] at h
          simp only at h
          exact ih _ s1 bs e s' (hp.ext hc.1).inv (fill_noErr (by omega) hn he e1) h

theorem readSlice_noErr {d : UInt8} {s s' : Rd} {bs : Bytes} {e : Option Err} (hc : Cap s) (hn : NoErr s)
    (h : readSlice d s = some ((bs, e), s')) :
    NoErr s' ∧ (e = none ∨ e = some .bufferFull ∨ (e = some .eof ∧ s'.data = [] ∧ s'.src = [])) := by
  unfold readSlice at h
  cases hr : readSliceLoop (s.cap + 2) d 0 s with
  | none => rw [hr] at h; simp at h
  | some q =>
    obtain ⟨⟨bs1, e1⟩, s1⟩ := q
    rw [hr] at h
    simp only [Option.map_some, Option.some.injEq, Prod.mk.injEq] at h
    obtain ⟨⟨rfl, rfl⟩, rfl⟩ := h
    have := readSliceLoop_noErr _ d 0 s bs1 e1 s1 hc hn hr
    unfold setLast
    split <;> exact this

theorem noErr_nb {s : Rd} (h : NoErr s) : NB s := by
  refine ⟨?_, fun c hc => by rw [(h.1 c hc).2]; simp⟩
  rcases h.2 with h | ⟨h, _⟩ <;> rw [h] <;> simp

theorem collect_noErr (f : Nat) (d : UInt8) : ∀ (acc : Bytes) (s : Rd) (bs : Bytes) (e : Option Err) (s' : Rd), Cap s → NoErr s →
    collect f d acc s = some ((bs, e), s') →
    NoErr s' ∧ (e = none ∨ (e = some .eof ∧ s'.data = [] ∧ s'.src = [])) := by
  induction f with
  | zero => intro acc s bs e s' _ _ h; simp [collect] at h
  | succ f ih =>
    intro acc s bs e s' hc hn h
    obtain ⟨bs1, e1, s1, h1, h2, h3, h4⟩ := readSlice_spec d s hc
    have hne := readSlice_noErr hc hn h1
    simp only [collect, h1] at h
    cases e1 with
    | none =>
      simp only [Option.some.injEq, Prod.mk.injEq] at h
      obtain ⟨⟨rfl, rfl⟩, rfl⟩ := h
      exact ⟨hne.1, Or.inl rfl⟩
    | some e1 =>
      rcases hne.2 with h0 | h0 | ⟨h0, h5, h6⟩
      · cases h0
      · simp only [Option.some.injEq] at h0
        subst h0
        exact ih _ s1 bs e s' h2.inv hne.1 h
      · simp only [Option.some.injEq] at h0
        subst h0
        simp only [Option.some.injEq, Prod.mk.injEq] at h
        obtain ⟨⟨rfl, rfl⟩, rfl⟩ := h
        exact ⟨hne.1, Or.inr ⟨rfl, h5, h6⟩⟩

/-- **`ReadBytes` finds every line** of a stream without errors, however long the line, whatever capacity and chunking: it returns
the first line if there is a delimiter, else all that is left, with end of file. -/
theorem readBytes_complete (d : UInt8) (s : Rd) (hc : Cap s) (hn : NoErr s) :
    ∃ bs e s', readBytes d s = some ((bs, e), s') ∧ Cap s' ∧ NoErr s' ∧
      ((d ∈ s.data ++ bytesOf s.src ∧ e = none ∧ ∃ l rest, d ∉ l ∧ s.data ++ bytesOf s.src = l ++ d :: rest ∧
          bs = l ++ [d] ∧ s'.data ++ bytesOf s'.src = rest) ∨
       (d ∉ s.data ++ bytesOf s.src ∧ e = some .eof ∧ bs = s.data ++ bytesOf s.src ∧ s'.data ++ bytesOf s'.src = [])) := by
  obtain ⟨bs, e, s', h1, h2, h3, h4, h5⟩ := readBytes_spec d s hc (noErr_nb hn)
  have hne := collect_noErr _ d [] s bs e s' hc hn h1
  refine ⟨bs, e, s', h1, h3, hne.1, ?_⟩
  rcases hne.2 with rfl | ⟨rfl, hd, hs⟩
  · left
    simp only at h5
    obtain ⟨l, rfl, hl⟩ := h5
    refine ⟨by rw [h2]; simp, rfl, l, _, hl, by rw [h2]; simp, rfl, rfl⟩
  · right
    simp only at h5
    have e0 : s'.data ++ bytesOf s'.src = [] := by rw [hd, hs]; rfl
    rw [e0, List.append_nil] at h2
    refine ⟨by rw [h2]; exact h5.1, rfl, h2.symm, e0⟩

/-! ### All lines: the messages of the P2P process (libcs/client/peerproc.go:107-117) -/

/-- The loop of libcs/client/peerproc.go:107-117: the lines that are logged. `stop` says whether a line begins with "p2p done".
Fuel: every line takes at least one byte (`lines_spec`). -/
def logLines (stop : Bytes → Bool) : Nat → Rd → List Bytes
  | 0, _ => []
  | f + 1, s =>
    match readBytes 10 s with
    | some ((line, none), s') => if stop line then [line] else line :: logLines stop f s'
    | _ => []

/-- The complete lines of a byte sequence, with their line ends. -/
def linesOf : Bytes → List Bytes
  | [] => []
  | b :: rest =>
    if b = 10 then [10] :: linesOf rest
    else match linesOf rest with
      | [] => []
      | l :: ls => (b :: l) :: ls

/-- Up to and including the first line that says stop. -/
def upTo (stop : Bytes → Bool) : List Bytes → List Bytes
  | [] => []
  | l :: ls => if stop l then [l] else l :: upTo stop ls

theorem linesOf_none : ∀ (l : Bytes), (10 : UInt8) ∉ l → linesOf l = [] := by
  intro l
  induction l with
  | nil => intro _; rfl
  | cons a l ih =>
    intro h
    simp only [List.mem_cons, not_or] at h
    simp [linesOf, Ne.symm h.1, ih h.2]

theorem linesOf_line (l rest : Bytes) (h : (10 : UInt8) ∉ l) : linesOf (l ++ 10 :: rest) = (l ++ [10]) :: linesOf rest := by
  induction l with
  | nil => simp [linesOf]
  | cons a l ih =>
    simp only [List.mem_cons, not_or] at h
    simp [linesOf, Ne.symm h.1, ih h.2]

/-- **Every complete line of the process's messages is logged, in order and whole, up to the first "p2p done"**, for every
chunking and capacity. -/
theorem log_lines (stop : Bytes → Bool) (f : Nat) : ∀ s : Rd, Cap s → NoErr s → s.data.length + (bytesOf s.src).length < f →
    logLines stop f s = upTo stop (linesOf (s.data ++ bytesOf s.src)) := by
  induction f with
  | zero => intro s _ _ h; omega
  | succ f ih =>
    intro s hc hn hf
    obtain ⟨bs, e, s', h1, h2, h3, h4⟩ := readBytes_complete 10 s hc hn
    simp only [logLines, h1]
    rcases h4 with ⟨_, rfl, l, rest, hl, hS, rfl, hr⟩ | ⟨hd, rfl, _, _⟩
    · rw [hS, linesOf_line l rest hl]
      simp only [upTo]
      split
      · rfl
      · rw [ih s' h2 h3 ?_, hr]
        have a := congrArg List.length hS
        have b := congrArg List.length hr
        simp only [List.length_append, List.length_cons] at a b
        omega
    · rw [linesOf_none _ hd]; rfl

/-! ### `ReadLine` -/

/-- **`ReadLine` never panics, and loses nothing**: what it returns, with the line end it drops, is what comes next in the stream.
`isPrefix` means that the line goes on, and it is never cut between `\r` and `\n`. -/
theorem readLine_spec (s : Rd) (hc : Cap s) (hn : NB s) :
    ∃ line p e s', readLine s = some ((line, p, e), s') ∧ Cap s' ∧ NB s' ∧
      ∃ eol : Bytes, s.data ++ bytesOf s.src = line ++ eol ++ (s'.data ++ bytesOf s'.src) ∧ 10 ∉ line ∧
        (p = true → eol = [] ∧ e = none ∧ ¬ (line.getLast? = some 13 ∧ (s'.data ++ bytesOf s'.src).head? = some 10)) ∧
        (e ≠ none → line = [] ∧ eol = []) ∧
        (eol = [] ∨ eol = [10] ∧ line.getLast? ≠ some 13 ∨ eol = [13, 10]) := by
  obtain ⟨bs, e, s', h1, h2, h3, h4⟩ := readSlice_spec 10 s hc
  have hfull := readSlice_full hc hn h1
  simp only [readLine, h1]
  have hgen : ∀ e, e ≠ some .bufferFull → (match e with | none => ∃ l, bs = l ++ [10] ∧ (10 : UInt8) ∉ l | some _ => (10 : UInt8) ∉ bs) →
      ∃ line p e' s'', (if bs = [] then some (([], false, e), s')
        else if bs.getLast? = some 10 then
          if bs.dropLast.getLast? = some 13 then some ((bs.dropLast.dropLast, false, none), s')
          else some ((bs.dropLast, false, none), s')
        else some ((bs, false, none), s') : Option ((Bytes × Bool × Option Err) × Rd)) = some ((line, p, e'), s'') ∧ Cap s'' ∧ NB s'' ∧
        ∃ eol : Bytes, s.data ++ bytesOf s.src = line ++ eol ++ (s''.data ++ bytesOf s''.src) ∧ 10 ∉ line ∧
        (p = true → eol = [] ∧ e' = none ∧ ¬ (line.getLast? = some 13 ∧ (s''.data ++ bytesOf s''.src).head? = some 10)) ∧
        (e' ≠ none → line = [] ∧ eol = []) ∧
        (eol = [] ∨ eol = [10] ∧ line.getLast? ≠ some 13 ∨ eol = [13, 10]) := by
    intro e he h4
    by_cases hb : bs = []
    · subst hb
      refine ⟨[], false, e, s', by simp, h2.inv, hfull.1, [], by simpa using h2.stream, by simp, by simp, by simp, Or.inl rfl⟩
    · rw [if_neg hb]
      cases e with
      | none =>
        simp only at h4
        obtain ⟨l, rfl, hl⟩ := h4
        rw [if_pos (by simp)]
        simp only [List.dropLast_concat]
        by_cases hr : l.getLast? = some 13
        · rw [if_pos hr]
          obtain ⟨l', rfl⟩ : ∃ l', l = l' ++ [13] := by
            rw [List.getLast?_eq_some_iff] at hr
            exact hr
          simp only [List.dropLast_concat]
          refine ⟨l', false, none, s', rfl, h2.inv, hfull.1, [13, 10], ?_, ?_, by simp, by simp, Or.inr (Or.inr rfl)⟩
          · rw [h2.stream]; simp
          · intro hx; exact hl (by simp [hx])
        · rw [if_neg hr]
          refine ⟨l, false, none, s', rfl, h2.inv, hfull.1, [10], ?_, hl, by simp, by simp, Or.inr (Or.inl ⟨rfl, hr⟩)⟩
          rw [h2.stream]
      | some e =>
        simp only at h4
        have hlast : bs.getLast? ≠ some 10 := by
          intro hx
          rw [List.getLast?_eq_some_iff] at hx
          obtain ⟨l', rfl⟩ := hx
          exact h4 (by simp)
        rw [if_neg hlast]
        exact ⟨bs, false, none, s', rfl, h2.inv, hfull.1, [], by simpa using h2.stream, h4, by simp, by simp, Or.inl rfl⟩
  by_cases he : e = some .bufferFull
  · subst he
    obtain ⟨g1, g2, g3, g4⟩ := hfull.2 rfl
    simp only at h4 ⊢
    by_cases hr : bs.getLast? = some 13
    · rw [if_pos hr]
      have hcap := hc.1
      rw [if_neg (by omega)]
      obtain ⟨l, rfl⟩ : ∃ l, bs = l ++ [13] := by
        rw [List.getLast?_eq_some_iff] at hr; exact hr
      simp only [List.dropLast_concat]
      refine ⟨l, true, none, { s' with r := s'.r - 1, data := 13 :: s'.data }, rfl, ?_, hfull.1, ?_⟩
      · have hi := h2.inv
        refine ⟨hi.1, ?_⟩
        have h5 := h2.cap
        simp only [g2, g3, List.length_cons, List.length_nil]
        omega
      · refine ⟨[], ?_, fun hx => h4 (by simp [hx]), fun _ => ⟨rfl, rfl, by simp⟩, by simp, Or.inl rfl⟩
        rw [h2.stream]; simp
    · rw [if_neg hr]
      exact ⟨bs, true, none, s', rfl, h2.inv, hfull.1, [], by simpa using h2.stream, h4, fun _ => ⟨rfl, rfl, fun hx => hr hx.1⟩, by simp, Or.inl rfl⟩
  · have := hgen e he h4
    obtain ⟨line, p, e', s'', k⟩ := this
    refine ⟨line, p, e', s'', ?_⟩
    refine ⟨?_, k.2⟩
    rw [← k.1]
    cases e with
    | none => rfl
    | some e => cases e <;> simp_all

/-! ### Witnesses -/

example : (readBytes 10 (Rd.new 4 [([1, 2, 3], none), ([4, 5, 6, 7], none), ([8, 10, 9], none)])).map (·.1) =
    some ([1, 2, 3, 4, 5, 6, 7, 8, 10], none) := by decide +kernel
example : NoErr (Rd.new 4 [([1, 2, 3], none), ([4, 5, 6, 7], none)]) := by
  refine ⟨?_, Or.inl rfl⟩
  intro c hc
  simp [Rd.new] at hc
  rcases hc with rfl | rfl <;> simp
example : (readLine (Rd.new 4 [([1, 2, 3, 13], none), ([10, 5], none)])).map (·.1) = some ([1, 2, 3], true, none) := by decide +kernel
example : ((readLine (Rd.new 4 [([1, 2, 3, 13], none), ([10, 5], none)])).bind fun q => (readLine q.2).map (·.1))
    = some ([], false, none) := by decide +kernel
example : logLines (fun l => l = [2, 10]) 20 (Rd.new 3 [([1, 10, 2], none), ([10, 3, 10], none)]) = [[1, 10], [2, 10]] := by decide +kernel

end Verif.Bufio
