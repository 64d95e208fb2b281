import Verif.Client.Chunked
set_option linter.unusedSimpArgs false
set_option linter.unusedVariables false
/-! # C31, soundness: end of stream is reported only for well-formed bodies

For every input whatsoever, not only for what the writer produces. -/
namespace Verif.Client.Chunked
open Verif

/-- A chunk-size line announcing `n` bytes: it ends with its only newline, is shorter than 4096 bytes, and what is
left of it without trailing white space and without the extension after `;` spells `n` in at most 16 hexadecimal
digits. -/
def SizeLine (l : Bytes) (n : Nat) : Prop :=
  (∃ l', l = l' ++ [10] ∧ (10 : UInt8) ∉ l') ∧ l.length < 4096 ∧
    value (cutSemi (trim l)) 0 = some n ∧ (cutSemi (trim l)).length ≤ 16

/-- `Body inp data tail`: `inp` is a chunked body carrying `data`, followed by `tail`: chunks of a size line, exactly
as many bytes, and CR LF; then a size line announcing 0. -/
inductive Body : Bytes → Bytes → Bytes → Prop
  | last (l tail : Bytes) : SizeLine l 0 → Body (l ++ tail) [] tail
  | chunk (l c r d tail : Bytes) : SizeLine l c.length → c ≠ [] → Body r d tail →
      Body (l ++ (c ++ ([13, 10] ++ r))) (c ++ d) tail

/-- What must follow if the reader is in state `s` and is still to return `d`, leaving `tail`. -/
def Rest (s : CR) (d tail : Bytes) : Prop :=
  match s.err with
  | some .eof => d = [] ∧ tail = s.rem
  | some _ => False
  | none =>
    if s.checkEnd then s.n = 0 ∧ ∃ r, s.rem = [13, 10] ++ r ∧ Body r d tail
    else if s.n = 0 then Body s.rem d tail
    else ∃ c r d', c.length = s.n ∧ s.rem = c ++ ([13, 10] ++ r) ∧ d = c ++ d' ∧ Body r d' tail

theorem cutLine_some {p l r : Bytes} (h : cutLine p = some (l, r)) :
    (∃ l', l = l' ++ [10] ∧ (10 : UInt8) ∉ l') ∧ p = l ++ r := by
  induction p generalizing l with
  | nil => simp [cutLine] at h
  | cons a t ih =>
    simp only [cutLine] at h
    by_cases ha : a = 10
    · simp only [ha, if_true, Option.some.injEq, Prod.mk.injEq] at h
      obtain ⟨rfl, rfl⟩ := h
      exact ⟨⟨[], by simp, by simp⟩, by simp [ha]⟩
    · simp only [ha, if_false, Option.map_eq_some_iff] at h
      obtain ⟨⟨l1, r1⟩, h1, h2⟩ := h
      simp only [Prod.mk.injEq] at h2
      obtain ⟨rfl, rfl⟩ := h2
      obtain ⟨⟨l', e1, e2⟩, e3⟩ := ih h1
      refine ⟨⟨a :: l', by simp [e1], ?_⟩, by simp [e3]⟩
      simp [e2, show ¬ (10 : UInt8) = a from fun x => ha x.symm]

/-- `beginChunk` between chunks. -/
theorem begin_sound {s : CR} {d tail : Bytes} (he : s.err = none) (hc : s.checkEnd = false) (hn : s.n = 0)
    (h : Rest (beginChunk s) d tail) : Body s.rem d tail ∧ ((beginChunk s).checkEnd = false) := by
  unfold beginChunk readChunkLine at h ⊢
  cases hcl : cutLine s.rem with
  | none =>
    rw [hcl] at h
    simp only [Rest] at h
    split at h
    · rename_i h1; split at h1 <;> cases h1
    · exact h.elim
    · rename_i h1; cases h1
  | some x =>
    obtain ⟨l, r⟩ := x
    rw [hcl] at h
    simp only at h ⊢
    obtain ⟨g1, g2⟩ := cutLine_some hcl
    by_cases hl : l.length ≥ 4096
    · simp only [hl, if_true, Rest] at h
    · simp only [hl, if_false] at h ⊢
      cases hp : parseHex 0 0 (cutSemi (trim l)) with
      | error e =>
        exfalso
        rw [hp] at h
        simp only [Rest] at h
        cases e with
        | eof =>
          have : ∀ (l : Bytes) (i n : Nat), parseHex i n l ≠ .error .eof := by
            intro l
            induction l with
            | nil => intro i n h; cases h
            | cons b t ih =>
              intro i n h
              simp only [parseHex] at h
              split at h
              · cases h
              · split at h
                · cases h
                · exact ih _ _ h
          exact this _ _ _ hp
        | _ => exact h
      | ok n =>
        rw [hp] at h
        simp only at h ⊢
        obtain ⟨p1, p2⟩ := (parse_hex_exact _ _).1 hp
        refine ⟨?_, hc⟩
        by_cases h0 : n = 0
        · subst h0
          simp only [Rest, if_true] at h
          obtain ⟨rfl, rfl⟩ := h
          rw [g2]
          exact .last l _ ⟨g1, by omega, p1, p2⟩
        · simp only [Rest, h0, if_false, hc, Bool.false_eq_true] at h
          obtain ⟨c, r', d', c1, c2, c3, c4⟩ := h
          rw [g2, c2, c3]
          refine .chunk l c r' d' tail ⟨g1, by omega, by rw [c1]; exact p1, p2⟩ ?_ c4
          intro hx; rw [hx] at c1; exact h0 c1.symm

/-- Reading data of a chunk. -/
theorem data_sound {s : CR} {blen : Nat} {c : Choice} {d tail : Bytes} (he : s.err = none) (hc : s.checkEnd = false)
    (hn : s.n ≠ 0) (h : Rest (readData s blen c).2 d tail) :
    Rest s ((readData s blen c).1 ++ d) tail ∧ ((readData s blen c).2.err = none →
      (readData s blen c).2.checkEnd = true → (readData s blen c).2.n = 0) := by
  unfold readData at h ⊢
  generalize hk : min (max c.k 1) (min (min blen s.n) s.rem.length) = k at h ⊢
  dsimp only at h ⊢
  rw [hk] at h ⊢
  by_cases h0 : k = 0
  · simp [h0, Rest] at h
  · simp only [h0, if_false] at h ⊢
    have hk1 : k ≤ s.n := by omega
    have hk2 : k ≤ s.rem.length := by omega
    have hl : (s.rem.take k).length = k := by simp; omega
    refine ⟨?_, fun _ hx => by simpa using hx⟩
    have e : s.rem = s.rem.take k ++ s.rem.drop k := (List.take_append_drop _ _).symm
    simp only [Rest, he, hc, if_neg hn, Bool.false_eq_true, if_false]
    simp only [Rest, he] at h
    by_cases hz : s.n - k = 0
    · simp only [hz, decide_true, if_true] at h
      obtain ⟨_, r, h1, h2⟩ := h
      refine ⟨s.rem.take k, r, d, by omega, ?_, rfl, h2⟩
      rw [← h1]; exact e
    · simp only [hz, decide_false, Bool.false_eq_true, if_false] at h
      obtain ⟨c', r, d', h1, h2, h3, h4⟩ := h
      refine ⟨s.rem.take k ++ c', r, d', by rw [List.length_append, hl]; omega, ?_, by rw [h3, List.append_assoc], h4⟩
      rw [List.append_assoc, ← h2]; exact e

theorem readLoop_side (env : Nat → Choice) : ∀ (fuel : Nat) (s : CR) (blen : Nat) (out : Bytes),
    (s.err = none → s.checkEnd = true → s.n = 0) →
    (readLoop env fuel s blen out).2.err = none → (readLoop env fuel s blen out).2.checkEnd = true →
    (readLoop env fuel s blen out).2.n = 0 := by
  intro fuel
  induction fuel with
  | zero => intro s blen out hs; simpa [readLoop] using hs
  | succ fuel ih =>
    intro s blen out hs
    unfold readLoop
    by_cases he : s.err ≠ none
    · rw [if_pos he]; exact hs
    · rw [if_neg he]
      dsimp only
      by_cases hf : (footer s out (env fuel)).2 = true
      · rw [if_pos hf]
        unfold footer
        split
        · split
          · exact hs
          · split
            · split
              · intro _ hx; cases hx
              · intro hx; cases hx
            · intro hx; cases hx
        · exact hs
      · rw [if_neg hf]
        have hfc : (footer s out (env fuel)).1.checkEnd = false := by
          revert hf
          unfold footer
          split
          · split
            · intro hx; exact absurd rfl hx
            · split
              · split
                · intro _; rfl
                · intro hx; exact absurd rfl hx
              · intro hx; exact absurd rfl hx
          · rename_i hx; intro _; simpa using hx
        split
        · split
          · intro _ hx; rw [hfc] at hx; cases hx
          · apply ih
            intro _ hx
            exfalso
            unfold beginChunk at hx
            split at hx
            · rw [hfc] at hx; cases hx
            · split at hx <;> (dsimp only at hx; rw [hfc] at hx; cases hx)
        · split
          · intro _ hx; rw [hfc] at hx; cases hx
          · apply ih
            unfold readData
            dsimp only
            split
            · intro hx; cases hx
            · intro _ hx; simpa using hx

theorem readLoop_sound (env : Nat → Choice) (fuel : Nat) (s : CR) (blen : Nat) (out d tail : Bytes)
    (hs : s.err = none → s.checkEnd = true → s.n = 0) (h : Rest (readLoop env fuel s blen out).2 d tail) :
    ∃ g, (readLoop env fuel s blen out).1 = out ++ g ∧ Rest s (g ++ d) tail := by
  induction fuel generalizing s blen out with
  | zero => exact ⟨[], by simp [readLoop], by simpa [readLoop] using h⟩
  | succ fuel ih =>
    unfold readLoop at h ⊢
    by_cases he : s.err ≠ none
    · rw [if_pos he] at h ⊢
      exact ⟨[], by simp, by simpa using h⟩
    · have he' : s.err = none := by simpa using he
      rw [if_neg he] at h ⊢
      dsimp only at h ⊢
      -- the second half of an iteration, after the footer
      have half : ∀ (s1 : CR) (res : Bytes × CR), s1.err = none → s1.checkEnd = false →
          res = (if s1.n = 0 then
              if out.length > 0 ∧ (env fuel).header = false then (out, s1) else readLoop env fuel (beginChunk s1) blen out
            else if blen = 0 then (out, s1)
            else readLoop env fuel (readData s1 blen (env fuel)).2 (blen - (readData s1 blen (env fuel)).1.length)
              (out ++ (readData s1 blen (env fuel)).1)) →
          Rest res.2 d tail → ∃ g, res.1 = out ++ g ∧ Rest s1 (g ++ d) tail := by
        intro s1 res e1 c1 hres hR
        by_cases hn : s1.n = 0
        · rw [if_pos hn] at hres
          by_cases hb : out.length > 0 ∧ (env fuel).header = false
          · rw [if_pos hb] at hres; subst hres
            exact ⟨[], by simp, by simpa using hR⟩
          · rw [if_neg hb] at hres; subst hres
            have hck : (beginChunk s1).checkEnd = false := by
              unfold beginChunk
              split
              · exact c1
              · split <;> exact c1
            obtain ⟨g, g1, g2⟩ := ih (beginChunk s1) blen out (by intro _ hx; rw [hck] at hx; cases hx) hR
            refine ⟨g, g1, ?_⟩
            have := (begin_sound e1 c1 hn g2).1
            simp only [Rest, e1, c1, Bool.false_eq_true, if_false, hn, if_true]
            exact this
        · rw [if_neg hn] at hres
          by_cases hb : blen = 0
          · rw [if_pos hb] at hres; subst hres
            exact ⟨[], by simp, by simpa using hR⟩
          · rw [if_neg hb] at hres; subst hres
            have hside : (readData s1 blen (env fuel)).2.err = none → (readData s1 blen (env fuel)).2.checkEnd = true →
                (readData s1 blen (env fuel)).2.n = 0 := by
              unfold readData
              dsimp only
              split
              · intro hx; cases hx
              · intro _ hx; simpa using hx
            obtain ⟨g, g1, g2⟩ := ih _ _ _ hside hR
            refine ⟨(readData s1 blen (env fuel)).1 ++ g, by rw [g1, List.append_assoc], ?_⟩
            rw [List.append_assoc]
            exact (data_sound e1 c1 hn g2).1
      by_cases hck : s.checkEnd = true
      · by_cases hlow : out.length > 0 ∧ (env fuel).low = true
        · have hf : footer s out (env fuel) = (s, true) := by unfold footer; rw [if_pos hck, if_pos hlow]
          rw [hf] at h ⊢
          exact ⟨[], by simp, by simpa using h⟩
        · have bad : ∀ s1 : CR, ∀ e, e ≠ .eof → s1.err = some e → ¬ Rest s1 d tail := by
            intro s1 e h1 h2 h3
            simp only [Rest, h2] at h3
          cases hr : s.rem with
          | nil =>
            have hf : footer s out (env fuel) = ({ s with rem := [], err := some .unexpectedEOF }, true) := by
              unfold footer; rw [if_pos hck, if_neg hlow, hr]
            rw [hf] at h; exact absurd h (bad _ .unexpectedEOF (by decide) rfl)
          | cons a t =>
            cases t with
            | nil =>
              have hf : footer s out (env fuel) = ({ s with rem := [], err := some .unexpectedEOF }, true) := by
                unfold footer; rw [if_pos hck, if_neg hlow, hr]
              rw [hf] at h; exact absurd h (bad _ .unexpectedEOF (by decide) rfl)
            | cons b r =>
              by_cases hab : a = 13 ∧ b = 10
              · have hf : footer s out (env fuel) = ({ s with rem := r, checkEnd := false }, false) := by
                  unfold footer; rw [if_pos hck, if_neg hlow, hr]; dsimp only; rw [if_pos hab]
                rw [hf] at h ⊢
                obtain ⟨g, g1, g2⟩ := half { s with rem := r, checkEnd := false } _ he' rfl rfl h
                refine ⟨g, g1, ?_⟩
                have hn := hs he' hck
                simp only [Rest, he', hck, if_true, hn]
                simp only [Rest, he', Bool.false_eq_true, if_false, hn, if_true] at g2
                exact ⟨trivial, r, by rw [hr, hab.1, hab.2]; rfl, g2⟩
              · have hf : footer s out (env fuel) = ({ s with rem := r, err := some .malformed }, true) := by
                  unfold footer; rw [if_pos hck, if_neg hlow, hr]; dsimp only; rw [if_neg hab]
                rw [hf] at h; exact absurd h (bad _ .malformed (by decide) rfl)
      · have hck' : s.checkEnd = false := by simpa using hck
        have hf : footer s out (env fuel) = (s, false) := by unfold footer; rw [if_neg hck]
        rw [hf] at h ⊢
        exact half s _ he' hck' rfl h

/-- **C31, soundness.**  For every input, every sequence of reads with any buffer sizes and any behaviour of the
underlying reader: if end of stream is reported, the input began with a well-formed chunked body, the reads
returned exactly the data it carries, and everything after the body is unread. In particular a chunk whose data
is not followed by CR LF, or a size that is not a hexadecimal number of at most 16 digits, never ends well. -/
theorem eof_means_well_formed (inp : Bytes) (rs : List (Nat × (Nat → Choice)))
    (h : (reads { rem := inp } rs).2.err = some .eof) :
    Body inp (reads { rem := inp } rs).1 (reads { rem := inp } rs).2.rem := by
  have key : ∀ (rs : List (Nat × (Nat → Choice))) (s : CR) (d tail : Bytes),
      (s.err = none → s.checkEnd = true → s.n = 0) → Rest (reads s rs).2 d tail → Rest s ((reads s rs).1 ++ d) tail := by
    intro rs
    induction rs with
    | nil => intro s d tail _ h; simpa [reads] using h
    | cons x rs ih =>
      intro s d tail hs h
      obtain ⟨b, env⟩ := x
      simp only [reads] at h ⊢
      have hside := readLoop_side env (s.rem.length + 2) s b [] hs
      have h1 := ih _ _ _ hside h
      obtain ⟨g, g1, g2⟩ := readLoop_sound env (s.rem.length + 2) s b [] _ tail hs h1
      have : (read env s b).1 = g := by unfold read; rw [g1]; simp
      rw [this, List.append_assoc]; exact g2
  have h1 : Rest (reads { rem := inp } rs).2 [] (reads { rem := inp } rs).2.rem := by simp [Rest, h]
  have h2 := key rs { rem := inp } _ _ (by intro _ hx; cases hx) h1
  simpa [Rest] using h2

/-- The input of the example of `Chunked` is a body in the sense of the specification. -/
example : Body ([52, 13, 10, 1, 2, 3, 4, 13, 10, 48, 59, 97, 13, 10] ++ [88]) [1, 2, 3, 4] [88] :=
  .chunk [52, 13, 10] [1, 2, 3, 4] _ [] [88] ⟨⟨[52, 13], rfl, by decide⟩, by decide, by decide, by decide⟩ (by decide)
    (.last [48, 59, 97, 13, 10] [88] ⟨⟨[48, 59, 97, 13], rfl, by decide⟩, by decide, by decide, by decide⟩)

/-- A chunk with a wrong end is refused. -/
example : (reads { rem := [49, 13, 10, 1, 13, 11, 48, 13, 10] } [(9, fun _ => ⟨false, true, 9⟩)]).2.err = some .malformed := by
  decide

end Verif.Client.Chunked
