import Verif.Bufio.ReadRune
set_option linter.unusedSimpArgs false
set_option linter.unusedVariables false
/-!
# C150: `Reader.WriteTo` (libcs/bufio/bufio.go:495-551) and errors under `LimitedReader.WriteTo` (reader.go:51-77)

For an underlying reader that is no `io.WriterTo` and a destination that is no `io.ReaderFrom` (with those the calls are
passed on, lines 505-515). The destination keeps the `io.Writer` contract: a short write comes with an error.
-/
namespace Verif.Bufio.WriteTo
open Verif Verif.Bufio
open Verif.Bufio.Scanner (stream emptiesAhead weight)
open Verif.Bufio.ReadRune (Steady post Later)

/-- libcs/bufio/bufio.go:543-551 `writeBuf`: bytes handed over, whether the write failed. -/
def writeBuf (s : Rd) (w : WScript) : Bytes × Bool × Rd × WScript :=
  let q := wrWrite w s.data
  (q.1, q.2.1, { s with r := s.r + q.1.length, data := s.data.drop q.1.length }, q.2.2)

/-- libcs/bufio/bufio.go:521-535: the loop of `WriteTo` and its end. `none`: panic, or out of fuel. -/
def loop : Nat → Bytes → Rd → WScript → Option (Bytes × WErr × Rd × WScript)
  | 0, _, _, _ => none
  | f + 1, acc, s, w =>
    if s.data.length > 0 then
      let q := writeBuf s w
      if q.2.1 then some (acc ++ q.1, .write, q.2.2)
      else match fill q.2.2.1 with
        | none => none
        | some s' => loop f (acc ++ q.1) s' q.2.2.2
    else match s.err with
      | none => some (acc, .nil, s, w)
      | some .eof => some (acc, .nil, { s with err := none }, w)
      | some e => some (acc, .read e, { s with err := none }, w)

/-- libcs/bufio/bufio.go:499-536 `WriteTo(w)`: the bytes handed over, the error, the reader and the destination
afterwards. -/
def writeTo (s : Rd) (w : WScript) : Option (Bytes × WErr × Rd × WScript) :=
  let q := writeBuf s w
  if q.2.1 then some (q.1, .write, q.2.2)
  else match (if q.2.2.1.data.length < q.2.2.1.cap then fill q.2.2.1 else some q.2.2.1) with
    | none => none
    | some s' => loop (weight s.src + 2) q.1 s' q.2.2.2

/-! ## Specification -/

/-- The underlying reader reports its errors apart from data (as TCP connections do): a result with an error has no bytes. -/
def Apart (src : Script) : Prop := ∀ x ∈ src, x.2 ≠ none → x.1 = []

/-- The error of a copy: the end of the stream is none. -/
def ended : Err → WErr
  | .eof => .nil
  | e => .read e

/-! ## Proofs -/

theorem apart_rest (src : Script) (m : Nat) (hm : 0 < m) (h : Apart src) :
    Apart (srcRead src m).2.2 ∧ ((srcRead src m).2.1 ≠ none → (srcRead src m).1 = []) := by
  cases src with
  | nil => exact ⟨by intro x hx; simp [srcRead] at hx, fun _ => rfl⟩
  | cons x r =>
    obtain ⟨bs, e⟩ := x
    have hr : Apart r := fun y hy => h y (List.mem_cons_of_mem _ hy)
    by_cases hl : bs.length ≤ m
    · have hs : srcRead ((bs, e) :: r) m = (bs, e, r) := by simp [srcRead, hl]
      rw [hs]
      exact ⟨hr, fun he => h (bs, e) (List.mem_cons_self ..) he⟩
    · have hs : srcRead ((bs, e) :: r) m = (bs.take m, none, (bs.drop m, e) :: r) := by simp [srcRead, hl]
      rw [hs]
      refine ⟨?_, fun he => absurd rfl he⟩
      intro y hy
      rcases List.mem_cons.1 hy with rfl | hy
      · intro he
        have := h (bs, e) (List.mem_cons_self ..) he
        dsimp only at this
        subst this
        simp at hl
      · exact hr y hy

/-- What a reader with an empty buffer gets: bytes, or the error of the stream. -/
theorem fillLoop_apart : ∀ (k : Nat) (s : Rd), s.err = none → s.data = [] → 0 < s.cap → Apart s.src → Steady s.src →
    emptiesAhead s.src < k →
    ((fillLoop k s).err = none ∧ (fillLoop k s).data ≠ [] ∧ (fillLoop k s).cap = s.cap ∧
      (stream s.src).1 = (fillLoop k s).data ++ (stream (fillLoop k s).src).1 ∧
      (stream s.src).2 = (stream (fillLoop k s).src).2 ∧ Apart (fillLoop k s).src ∧ Steady (fillLoop k s).src ∧
      weight (fillLoop k s).src < weight s.src) ∨
    ((fillLoop k s).err = some (stream s.src).2 ∧ (fillLoop k s).data = [] ∧ (stream s.src).1 = []) := by
  intro k
  induction k with
  | zero => intro s _ _ _ _ _ h; omega
  | succ k ih =>
    intro s he hd hc ha hst hk
    have hq := Scanner.srcRead_cases s.src (s.cap - s.data.length) (by rw [hd]; simpa using hc)
    have hs' := ReadRune.steady_rest s.src (s.cap - s.data.length) (by rw [hd]; simpa using hc) hst
    have ha' := apart_rest s.src (s.cap - s.data.length) (by rw [hd]; simpa using hc) ha
    unfold fillLoop
    generalize srcRead s.src (s.cap - s.data.length) = q at hq hs' ha' ⊢
    obtain ⟨bs, e', src'⟩ := q
    dsimp only at hq hs' ha' ⊢
    rcases hq with ⟨e'', rfl, h2, h3, h4⟩ | ⟨rfl, h2, h3, h4, h5, h6⟩
    · right
      have hb := ha'.2 (by simp)
      dsimp only
      rw [hd, hb, h3]
      exact ⟨rfl, rfl, by rw [← h2, hb]⟩
    · dsimp only
      rcases h6 with ⟨h6, r, hsrc, hrest⟩ | ⟨h6, _⟩
      · rw [if_neg (by omega)]
        have hnil : bs = [] := List.length_eq_zero_iff.1 h6
        subst hnil
        have hkk : emptiesAhead s.src = emptiesAhead r + 1 := by
          rw [hsrc]; simp [emptiesAhead, List.takeWhile_cons]
        have := ih { s with data := s.data ++ [], src := src' } he (by simp [hd]) hc ha'.1 hs' (by dsimp only; rw [hrest]; omega)
        dsimp only at this
        rw [h2, h3, List.nil_append]
        rcases this with ⟨i1, i2, i3, i4, i5, i6, i7, i8⟩ | i
        · exact Or.inl ⟨i1, i2, i3, i4, i5, i6, i7, by omega⟩
        · exact Or.inr i
      · rw [if_pos h6]
        left
        refine ⟨he, ?_, rfl, ?_, h3, ha'.1, hs', h5⟩
        · dsimp only; rw [hd, List.nil_append]; intro h0; rw [h0] at h6; simp at h6
        · dsimp only; rw [hd, List.nil_append, h2]

theorem fillLoop_cap : ∀ (k : Nat) (s : Rd), (fillLoop k s).cap = s.cap ∧ (fillLoop k s).r = s.r := by
  intro k
  induction k with
  | zero => intro s; exact ⟨rfl, rfl⟩
  | succ k ih =>
    intro s
    unfold fillLoop
    generalize srcRead s.src (s.cap - s.data.length) = q
    obtain ⟨bs, e, r⟩ := q
    cases e with
    | some e => exact ⟨rfl, rfl⟩
    | none =>
      dsimp only
      by_cases hb : bs.length > 0
      · rw [if_pos hb]; exact ⟨rfl, rfl⟩
      · rw [if_neg hb]; exact ih _

theorem loop_spec : ∀ (f : Nat) (acc : Bytes) (s : Rd), s.err = none → s.data ≠ [] → 0 < s.cap → Apart s.src →
    Steady s.src → weight s.src + 1 < f →
    ∃ s', loop f acc s [] = some (acc ++ s.data ++ (stream s.src).1, ended (stream s.src).2, s', []) ∧
      s'.err = none ∧ s'.data = [] ∧ s'.src = post s.src ∧ s'.cap = s.cap ∧ s'.r = 0 := by
  intro f
  induction f with
  | zero => intro acc s _ _ _ _ _ h; omega
  | succ f ih =>
    intro acc s he hd hc ha hst hf
    have hpos : s.data.length > 0 := List.length_pos_iff.2 hd
    unfold loop
    rw [if_pos hpos]
    have hw : writeBuf s [] = (s.data, false, { s with r := s.r + s.data.length, data := [] }, []) := by
      simp [writeBuf, wrWrite]
    rw [hw]
    dsimp only
    rw [if_neg (by simp)]
    have hfill : fill { s with r := s.r + s.data.length, data := [] } =
        some (fillLoop 100 { s with r := 0, data := [] }) := by
      simp only [fill]
      rw [if_neg (by simp; omega)]
    rw [hfill]
    dsimp only
    have hx := fillLoop_apart 100 { s with r := 0, data := [] } he rfl hc ha hst (ReadRune.steady_ahead _ hst)
    have hy := ReadRune.fillLoop_later 100 { s with r := 0, data := [] } _ he hc hst (ReadRune.steady_ahead _ hst)
      (Or.inl ⟨he, rfl⟩)
    have hz := fillLoop_cap 100 { s with r := 0, data := [] }
    generalize fillLoop 100 { s with r := 0, data := [] } = t at hx hy hz ⊢
    dsimp only at hx
    rcases hx with ⟨x1, x2, x3, x4, x5, x6, x7, x8⟩ | ⟨x1, x2, x3⟩
    · obtain ⟨s', i1, i2, i3, i4, i5⟩ := ih (acc ++ s.data) t x1 x2 (by rw [x3]; exact hc) x6 x7 (by omega)
      have hp : post t.src = post s.src := by
        rcases hy with hy | hy
        · exact hy.2
        · exact absurd x1 hy.1
      refine ⟨s', ?_, i2, i3, by rw [i4, hp], by rw [i5.1, x3], i5.2⟩
      rw [i1, x4, x5]
      simp only [List.append_assoc]
    · obtain ⟨g, rfl⟩ : ∃ g, f = g + 1 := ⟨f - 1, by omega⟩
      unfold loop
      rw [if_neg (by rw [x2]; simp), x1, x3, List.append_nil]
      have hp : t.src = post s.src := by
        rcases hy with hy | hy
        · rw [x1] at hy; cases hy.1
        · exact hy.2
      cases (stream s.src).2 <;> exact ⟨_, rfl, rfl, x2, hp, hz⟩

/-- **C150.** If the underlying reader reports errors apart from data and the destination takes everything, `WriteTo` hands
over exactly the rest of the stream, in order, up to the reader's first error, and returns that error (none for the end of
the stream). Any segmentation, anything already buffered. The error is reported once: the reader is left empty, without error, and
with what the underlying reader delivers after it. Missing: see `error_with_data_lost`. -/
theorem write_to_exact_partial (s : Rd) (hc : Cap s) (he : s.err = none) (ha : Apart s.src) (hst : Steady s.src) :
    ∃ s', writeTo s [] = some (s.data ++ (stream s.src).1, ended (stream s.src).2, s', []) ∧
      s'.err = none ∧ s'.data = [] ∧ s'.src = post s.src ∧ s'.cap = s.cap ∧ s'.r = 0 := by
  unfold writeTo
  have hw : writeBuf s [] = (s.data, false, { s with r := s.r + s.data.length, data := [] }, []) := by
    simp [writeBuf, wrWrite]
  rw [hw]
  dsimp only
  have hpos := hc.1
  rw [if_neg (by simp), if_pos (by simpa using hpos)]
  have hfill : fill { s with r := s.r + s.data.length, data := [] } =
      some (fillLoop 100 { s with r := 0, data := [] }) := by
    simp only [fill]
    rw [if_neg (by simp; omega)]
  rw [hfill]
  dsimp only
  have hx := fillLoop_apart 100 { s with r := 0, data := [] } he rfl hpos ha hst (ReadRune.steady_ahead _ hst)
  have hy := ReadRune.fillLoop_later 100 { s with r := 0, data := [] } _ he hpos hst (ReadRune.steady_ahead _ hst)
    (Or.inl ⟨he, rfl⟩)
  have hz := fillLoop_cap 100 { s with r := 0, data := [] }
  generalize fillLoop 100 { s with r := 0, data := [] } = t at hx hy hz ⊢
  dsimp only at hx
  rcases hx with ⟨x1, x2, x3, x4, x5, x6, x7, x8⟩ | ⟨x1, x2, x3⟩
  · obtain ⟨s', i1, i2, i3, i4, i5⟩ := loop_spec (weight s.src + 2) s.data t x1 x2 (by rw [x3]; exact hpos) x6 x7 (by omega)
    have hp : post t.src = post s.src := by
      rcases hy with hy | hy
      · exact hy.2
      · exact absurd x1 hy.1
    refine ⟨s', ?_, i2, i3, by rw [i4, hp], by rw [i5.1, x3], i5.2⟩
    rw [i1, x4, x5]
    simp only [List.append_assoc]
  · unfold loop
    rw [if_neg (by rw [x2]; simp), x1, x3, List.append_nil]
    have hp : t.src = post s.src := by
      rcases hy with hy | hy
      · rw [x1] at hy; cases hy.1
      · exact hy.2
    cases (stream s.src).2 <;> exact ⟨_, rfl, rfl, x2, hp, hz⟩

theorem apart_post : ∀ (src : Script), Apart src → Apart (post src)
  | [], h => h
  | (_, some _) :: _, h => fun y hy => h y (List.mem_cons_of_mem _ hy)
  | (_, none) :: r, h => apart_post r (fun y hy => h y (List.mem_cons_of_mem _ hy))

/-- **C150.** So a second `WriteTo` after the error copies exactly what the underlying reader delivers between its first and its
second error. -/
theorem write_to_again_partial (s : Rd) (hc : Cap s) (he : s.err = none) (ha : Apart s.src) (hst : Steady s.src) :
    ∃ s1 s2, writeTo s [] = some (s.data ++ (stream s.src).1, ended (stream s.src).2, s1, []) ∧
      writeTo s1 [] = some ((stream (post s.src)).1, ended (stream (post s.src)).2, s2, []) := by
  obtain ⟨s1, h1, h2, h3, h4, h5⟩ := write_to_exact_partial s hc he ha hst
  have hc1 : Cap s1 := by
    unfold Cap at hc ⊢
    rw [h3, h5.1]
    refine ⟨hc.1, by rw [h5.2]; exact Nat.zero_le _⟩
  obtain ⟨s2, k1, _⟩ := write_to_exact_partial s1 hc1 h2 (by rw [h4]; exact apart_post _ ha)
    (by rw [h4]; exact ReadRune.post_steady _ hst)
  refine ⟨s1, s2, h1, ?_⟩
  rw [k1, h3, h4]
  rfl

theorem wr_prefix (w : WScript) (p : Bytes) : ∃ r, p = (wrWrite w p).1 ++ r ∧ r = p.drop (wrWrite w p).1.length ∧
    ((wrWrite w p).2.1 = false → r = []) := by
  refine ⟨p.drop (wrWrite w p).1.length, ?_, rfl, ?_⟩
  · cases w with
    | nil => simp [wrWrite]
    | cons x w =>
      cases x with
      | none => simp [wrWrite]
      | some k =>
        simp only [wrWrite]
        rw [List.length_take]
        by_cases h : k ≤ p.length
        · rw [Nat.min_eq_left h, List.take_append_drop]
        · rw [Nat.min_eq_right (by omega), List.take_of_length_le (by omega)]; simp
  · cases w with
    | nil => simp [wrWrite]
    | cons x w =>
      cases x with
      | none => simp [wrWrite]
      | some k => simp [wrWrite]

theorem loop_prefix : ∀ (f : Nat) (acc : Bytes) (s s' : Rd) (w w' : WScript) (bs : Bytes) (e : WErr), Cap s →
    loop f acc s w = some (bs, e, s', w') → acc ++ (s.data ++ bytesOf s.src) = bs ++ (s'.data ++ bytesOf s'.src) := by
  intro f
  induction f with
  | zero => intro acc s s' w w' bs e _ h; cases h
  | succ f ih =>
    intro acc s s' w w' bs e hc h
    unfold loop at h
    by_cases hp : s.data.length > 0
    · rw [if_pos hp] at h
      obtain ⟨r, h1, h2, h3⟩ := wr_prefix w s.data
      unfold writeBuf at h
      dsimp only at h
      by_cases hf : (wrWrite w s.data).2.1 = true
      · rw [if_pos hf] at h
        cases h
        dsimp only
        rw [← h2]
        conv => lhs; rw [h1]
        simp only [List.append_assoc]
      · rw [if_neg hf] at h
        have hr := h3 (by simpa using hf)
        rw [hr, List.append_nil] at h1
        have hroom : ({ s with r := s.r + (wrWrite w s.data).1.length, data := s.data.drop (wrWrite w s.data).1.length } : Rd).data.length <
            ({ s with r := s.r + (wrWrite w s.data).1.length, data := s.data.drop (wrWrite w s.data).1.length } : Rd).cap := by
          dsimp only; rw [← h2, hr]; simpa using hc.1
        obtain ⟨t, b2, k1, k2⟩ := fill_spec _ hroom
        rw [k1] at h
        dsimp only at h
        have hct : Cap t := (k2.ext hc.1).inv
        have := ih _ _ _ _ _ _ _ hct h
        rw [← this]
        have hstr := (k2.ext hc.1).stream
        dsimp only at hstr
        rw [hstr, ← h2, hr, List.nil_append]
        conv => lhs; rw [h1]
        simp only [List.append_assoc]
    · rw [if_neg hp] at h
      cases he : s.err with
      | none => rw [he] at h; cases h; rfl
      | some x => rw [he] at h; cases x <;> (cases h; rfl)

/-- **C150.** Whatever the reader and the destination do (errors with data, short writes): the bytes handed over and what is
left after `WriteTo` are together exactly what was left before; nothing is lost, doubled or moved. -/
theorem write_to_in_order (s s' : Rd) (w w' : WScript) (bs : Bytes) (e : WErr) (hc : Cap s)
    (h : writeTo s w = some (bs, e, s', w')) : s.data ++ bytesOf s.src = bs ++ (s'.data ++ bytesOf s'.src) := by
  unfold writeTo at h
  obtain ⟨r, h1, h2, h3⟩ := wr_prefix w s.data
  unfold writeBuf at h
  dsimp only at h
  by_cases hf : (wrWrite w s.data).2.1 = true
  · rw [if_pos hf] at h
    cases h
    dsimp only
    rw [← h2]
    conv => lhs; rw [h1]
    simp only [List.append_assoc]
  · rw [if_neg hf] at h
    have hr := h3 (by simpa using hf)
    rw [hr, List.append_nil] at h1
    have hroom : ({ s with r := s.r + (wrWrite w s.data).1.length, data := s.data.drop (wrWrite w s.data).1.length } : Rd).data.length <
        ({ s with r := s.r + (wrWrite w s.data).1.length, data := s.data.drop (wrWrite w s.data).1.length } : Rd).cap := by
      dsimp only; rw [← h2, hr]; simpa using hc.1
    rw [if_pos hroom] at h
    obtain ⟨t, b2, k1, k2⟩ := fill_spec _ hroom
    rw [k1] at h
    dsimp only at h
    have hct : Cap t := (k2.ext hc.1).inv
    have := loop_prefix _ _ _ _ _ _ _ _ hct h
    rw [← this]
    have hstr := (k2.ext hc.1).stream
    dsimp only at hstr
    rw [hstr, ← h2, hr, List.nil_append]
    conv => lhs; rw [h1]

theorem wr_used (w : WScript) (p : Bytes) : ∃ used, w = used ++ (wrWrite w p).2.2 ∧
    ((wrWrite w p).2.1 = true ↔ ∃ x ∈ used, x ≠ none) := by
  cases w with
  | nil => exact ⟨[], rfl, by simp [wrWrite]⟩
  | cons x w => cases x with
    | none => exact ⟨[none], rfl, by simp [wrWrite]⟩
    | some k => exact ⟨[some k], rfl, by simp [wrWrite]⟩

theorem loop_used : ∀ (f : Nat) (acc : Bytes) (s s' : Rd) (w w' : WScript) (bs : Bytes) (e : WErr),
    loop f acc s w = some (bs, e, s', w') → ∃ used, w = used ++ w' ∧ (e = .write ↔ ∃ x ∈ used, x ≠ none) := by
  intro f
  induction f with
  | zero => intro acc s s' w w' bs e h; cases h
  | succ f ih =>
    intro acc s s' w w' bs e h
    unfold loop at h
    by_cases hp : s.data.length > 0
    · rw [if_pos hp] at h
      obtain ⟨u, h1, h2⟩ := wr_used w s.data
      unfold writeBuf at h
      dsimp only at h
      by_cases hf : (wrWrite w s.data).2.1 = true
      · rw [if_pos hf] at h
        cases h
        exact ⟨u, h1, by simp [h2.1 hf]⟩
      · rw [if_neg hf] at h
        split at h
        · cases h
        · obtain ⟨v, i1, i2⟩ := ih _ _ _ _ _ _ _ h
          refine ⟨u ++ v, by rw [List.append_assoc, ← i1]; exact h1, ?_⟩
          rw [i2]
          constructor
          · rintro ⟨x, hx, hn⟩
            exact ⟨x, List.mem_append_right _ hx, hn⟩
          · rintro ⟨x, hx, hn⟩
            rcases List.mem_append.1 hx with hx | hx
            · exact absurd (h2.2 ⟨x, hx, hn⟩) hf
            · exact ⟨x, hx, hn⟩
    · rw [if_neg hp] at h
      refine ⟨[], ?_⟩
      cases he : s.err with
      | none => rw [he] at h; cases h; exact ⟨rfl, by simp⟩
      | some x => rw [he] at h; cases x <;> (cases h; exact ⟨rfl, by simp⟩)

/-- **C150.** A short write is reported, and nothing else is reported as one: of the writes made (`used`, the
others are still to come), one failed if and only if `WriteTo` returns a write error. -/
theorem short_write_reported (s s' : Rd) (w w' : WScript) (bs : Bytes) (e : WErr)
    (h : writeTo s w = some (bs, e, s', w')) : ∃ used, w = used ++ w' ∧ (e = .write ↔ ∃ x ∈ used, x ≠ none) := by
  unfold writeTo at h
  obtain ⟨u, h1, h2⟩ := wr_used w s.data
  unfold writeBuf at h
  dsimp only at h
  by_cases hf : (wrWrite w s.data).2.1 = true
  · rw [if_pos hf] at h
    cases h
    exact ⟨u, h1, by simp [h2.1 hf]⟩
  · rw [if_neg hf] at h
    split at h
    · cases h
    · obtain ⟨v, i1, i2⟩ := loop_used _ _ _ _ _ _ _ _ h
      refine ⟨u ++ v, by rw [List.append_assoc, ← i1]; exact h1, ?_⟩
      rw [i2]
      constructor
      · rintro ⟨x, hx, hn⟩
        exact ⟨x, List.mem_append_right _ hx, hn⟩
      · rintro ⟨x, hx, hn⟩
        rcases List.mem_append.1 hx with hx | hx
        · exact absurd (h2.2 ⟨x, hx, hn⟩) hf
        · exact ⟨x, hx, hn⟩

/-- **Violation.** An error that came together with bytes is overwritten by the next read: the copy goes on behind it and
reports success. -/
theorem error_with_data_lost :
    (writeTo (Rd.new 16 [([1, 2], some (.other 7)), ([3], none)]) []).map (fun q => (q.1, q.2.1)) =
      some ([1, 2, 3], .nil) ∧
    stream [([1, 2], some (.other 7)), ([3], none)] = ([1, 2], .other 7) := by
  refine ⟨by decide +kernel, rfl⟩

/-- **Violation**, the same in `LimitedReader.WriteTo`, with which frames are copied: the frame is completed with bytes read
after the connection's error, and no error is reported. -/
theorem limited_error_lost :
    (Lim.writeTo ⟨Rd.new 16 [([1, 2], some (.other 7)), ([3], none)], 3⟩ []).map (fun q => (q.1, q.2.1)) =
      some ([1, 2, 3], .nil) := by decide +kernel

/-- Errors apart from data: delivered and reported; short write: reported, the rest stays. -/
theorem write_to_example :
    (writeTo (Rd.new 16 [([1, 2], none), ([], none), ([3], none), ([], some (.other 7)), ([4], none)]) []).map
      (fun q => (q.1, q.2.1)) = some ([1, 2, 3], .read (.other 7)) ∧
    (writeTo (Rd.new 16 [([1, 2], none), ([3], none)]) [none, some 1]).map (fun q => (q.1, q.2.1, q.2.2.1.data, q.2.2.2)) =
      some ([1], .write, [2], []) ∧
    Apart [([1, 2], none), ([], none), ([3], none), ([], some (.other 7)), ([4], none)] ∧
    Cap (Rd.new 16 [([1, 2], none)]) := by
  refine ⟨by decide +kernel, by decide +kernel, ?_, by simp [Cap, Rd.new]⟩
  intro x hx
  simp at hx
  rcases hx with rfl | rfl | rfl | rfl | rfl <;> simp

end Verif.Bufio.WriteTo
