import Verif.Bufio.Writer
set_option linter.unusedSimpArgs false
set_option linter.unusedVariables false
/-!
# C154: `ReadFrom` of the buffered writer (libcs/bufio/bufio.go:721-768)

The source is one entry per `Read`: the bytes that it has and what it reports with the last of them. A `Read` with less room than bytes
gives as many as fit and keeps the rest; behind the last entry comes the end of file. Readers that report more bytes than
they had room for are not modelled (the Go code then panics).
-/
namespace Verif.Bufio.Writer
open Verif Verif.Bufio

inductive RE where
  | eof
  | other (n : Nat)
deriving DecidableEq, Repr

abbrev Source := List (Bytes × Option RE)

/-- One `r.Read(p)` with `len(p) = k`. -/
def get (k : Nat) : Source → Bytes × Option RE × Source
  | [] => ([], some .eof, [])
  | (d, e) :: rs => if d.length ≤ k then (d, e, rs) else (d.take k, none, (d.drop k, e) :: rs)

/-- libcs/bufio/bufio.go:742-749: `nr` counted down from `maxConsecutiveEmptyReads`; `none`: all of them were empty. -/
def getSome (k : Nat) : Nat → Source → Option (Bytes × Option RE) × Source
  | 0, src => (none, src)
  | f + 1, src =>
    let q := get k src
    if q.1.length ≠ 0 ∨ q.2.1 ≠ none then (some (q.1, q.2.1), q.2.2) else getSome k f q.2.2

inductive FE where
  | write (e : WE)
  | read (n : Nat)
  | noProgress
deriving DecidableEq, Repr

structure Res where
  n : Nat
  err : Option FE
  wr : Wr
  src : Source
deriving DecidableEq, Repr

/-- libcs/bufio/bufio.go:735-767: the loop, with the bytes counted so far. `none`: out of fuel (see `readFrom_returns`). -/
def readFromLoop : Nat → Wr → Source → Nat → Option Res
  | 0, _, _, _ => none
  | f + 1, s, src, n =>
    let q := if s.cap - s.buf.length = 0 then flush s else (none, s)
    match q.1 with
    | some e => some ⟨n, some (.write e), q.2, src⟩
    | none =>
      let s := q.2
      match getSome (s.cap - s.buf.length) 100 src with
      | (none, src') => some ⟨n, some .noProgress, s, src'⟩
      | (some (d, e), src') =>
        let s := { s with buf := s.buf ++ d }
        match e with
        | none => readFromLoop f s src' (n + d.length)
        | some .eof =>
          if s.cap - s.buf.length = 0 then
            let q := flush s
            some ⟨n + d.length, q.1.map .write, q.2, src'⟩
          else some ⟨n + d.length, none, s, src'⟩
        | some (.other x) => some ⟨n + d.length, some (.read x), s, src'⟩

def bytesOf : Source → Nat
  | [] => 0
  | x :: rs => x.1.length + 1 + bytesOf rs

/-- libcs/bufio/bufio.go:724-768 `ReadFrom` onto an underlying writer that is no `io.ReaderFrom`. -/
def readFrom (s : Wr) (src : Source) : Option Res :=
  match s.err with
  | some e => some ⟨0, some (.write e), s, src⟩
  | none => readFromLoop (bytesOf src + 2) s src 0

/-! ## Specification -/

/-- What the source has: its bytes up to the first report, and that report. -/
def content : Source → Bytes × RE
  | [] => ([], .eof)
  | (d, some e) :: _ => (d, e)
  | (d, none) :: rs => (d ++ (content rs).1, (content rs).2)

/-- A hundred reads in a row that give nothing. -/
def Idle (src : Source) : Prop := ∃ pre post, src = pre ++ List.replicate 100 ([], none) ++ post

/-- What `ReadFrom` has to do. -/
structure Copied (s : Wr) (src : Source) (r : Res) : Prop where
  bytes : r.wr.out ++ r.wr.buf = s.out ++ s.buf ++ (content src).1.take r.n
  grows : ∃ d, r.wr.out = s.out ++ d
  le : r.n ≤ (content src).1.length
  kept : r.n < (content src).1.length → (content r.src).1 = (content src).1.drop r.n ∧ (content r.src).2 = (content src).2
  done : r.err = none → r.n = (content src).1.length ∧ (content src).2 = .eof ∧ r.wr.err = none ∧ r.wr.buf.length < r.wr.cap
  readErr : ∀ x, r.err = some (.read x) → r.n = (content src).1.length ∧ (content src).2 = .other x ∧ r.wr.err = none
  writeErr : ∀ e, r.err = some (.write e) → r.wr.err = some e
  idle : r.err = some .noProgress → Idle src ∧ r.wr.err = none

/-! ## Proofs -/

theorem get_cons (k : Nat) (d : Bytes) (e : Option RE) (rs : Source) :
    get k ((d, e) :: rs) = if d.length ≤ k then (d, e, rs) else (d.take k, none, (d.drop k, e) :: rs) := rfl

theorem get_spec (k : Nat) (src : Source) :
    (get k src).1.length ≤ k ∧
    (match (get k src).2.1 with
      | some e => content src = ((get k src).1, e)
      | none => content src = ((get k src).1 ++ (content (get k src).2.2).1, (content (get k src).2.2).2)) := by
  cases src with
  | nil => simp [get, content]
  | cons x rs =>
    obtain ⟨d, e⟩ := x
    rw [get_cons]
    by_cases h : d.length ≤ k
    · rw [if_pos h]
      refine ⟨h, ?_⟩
      cases e <;> simp [content]
    · rw [if_neg h]
      refine ⟨by simp; omega, ?_⟩
      simp only
      cases e with
      | none => simp only [content, ← List.append_assoc, List.take_append_drop]
      | some e => simp only [content, List.take_append_drop]

theorem get_less (k : Nat) (hk : 0 < k) (src : Source) : (get k src).2.1 = none →
    bytesOf (get k src).2.2 < bytesOf src := by
  cases src with
  | nil => intro h; simp [get] at h
  | cons x rs =>
    obtain ⟨d, e⟩ := x
    rw [get_cons]
    by_cases h : d.length ≤ k
    · rw [if_pos h]; intro _; simp only [bytesOf]; omega
    · rw [if_neg h]; intro _; simp only [bytesOf, List.length_drop]; omega

theorem get_idle (k : Nat) (src : Source) : (get k src).1.length = 0 → (get k src).2.1 = none → 0 < k →
    src = ([], none) :: (get k src).2.2 := by
  cases src with
  | nil => intro _ h; simp [get] at h
  | cons x rs =>
    obtain ⟨d, e⟩ := x
    rw [get_cons]
    by_cases h : d.length ≤ k
    · rw [if_pos h]; intro h1 h2 _
      simp only at h1 h2 ⊢
      rw [List.length_eq_zero_iff.1 h1, h2]
    · rw [if_neg h]; intro h1 _ hk
      simp only [List.length_take] at h1
      omega

/-- The tail after a read is a tail of the source, up to what was taken of its first entry. -/
theorem get_idle_up (k : Nat) (hk : 0 < k) (src : Source) (h : (get k src).2.1 = none) (hi : Idle (get k src).2.2) : Idle src := by
  cases src with
  | nil => simp [get] at h
  | cons x rs =>
    obtain ⟨d, e⟩ := x
    rw [get_cons] at h hi
    by_cases hl : d.length ≤ k
    · rw [if_pos hl] at h hi
      obtain ⟨pre, post, hp⟩ := hi
      exact ⟨(d, e) :: pre, post, by simp only at hp; rw [hp]; simp⟩
    · rw [if_neg hl] at h hi
      obtain ⟨pre, post, hp⟩ := hi
      simp only at hp
      cases pre with
      | nil =>
        rw [List.replicate_succ] at hp
        simp only [List.nil_append, List.cons_append, List.cons.injEq, Prod.mk.injEq] at hp
        have := congrArg List.length hp.1.1
        simp at this; omega
      | cons y pre =>
        simp only [List.cons_append, List.cons.injEq] at hp
        exact ⟨(d, e) :: pre, post, by rw [hp.2]; simp⟩

theorem getSome_spec (k : Nat) (hk : 0 < k) : ∀ (f : Nat) (src : Source),
    (∀ src', getSome k f src = (none, src') → src = List.replicate f ([], none) ++ src' ∧ content src' = content src) ∧
    (∀ d e src', getSome k f src = (some (d, e), src') → d.length ≤ k ∧
      (match e with
        | some e => content src = (d, e)
        | none => content src = (d ++ (content src').1, (content src').2) ∧ bytesOf src' < bytesOf src ∧ (Idle src' → Idle src))) := by
  intro f
  induction f with
  | zero =>
    intro src
    refine ⟨fun src' h => ?_, fun d e src' h => by simp [getSome] at h⟩
    simp only [getSome, Prod.mk.injEq, true_and] at h
    subst h; simp
  | succ f ih =>
    intro src
    obtain ⟨g1, g2⟩ := get_spec k src
    have g3 := get_less k hk src
    have g4 := get_idle k src
    have g5 := get_idle_up k hk src
    unfold getSome
    by_cases hc : (get k src).1.length ≠ 0 ∨ (get k src).2.1 ≠ none
    · simp only [if_pos hc]
      refine ⟨fun src' h => by simp at h, fun d e src' h => ?_⟩
      simp only [Prod.mk.injEq, Option.some.injEq] at h
      obtain ⟨⟨h1, h2⟩, h3⟩ := h
      subst h1 h2 h3
      refine ⟨g1, ?_⟩
      revert g2 g3 g5
      cases (get k src).2.1 with
      | none => intro g2 g3 g5; exact ⟨g2, g3 rfl, g5 rfl⟩
      | some e => intro g2 _ _; exact g2
    · simp only [if_neg hc]
      have h1 : (get k src).1.length = 0 := by
        by_cases h : (get k src).1.length = 0
        · exact h
        · exact absurd (Or.inl h) hc
      have h2 : (get k src).2.1 = none := by
        by_cases h : (get k src).2.1 = none
        · exact h
        · exact absurd (Or.inr h) hc
      have h5 := g4 h1 h2 hk
      have hce : content src = content (get k src).2.2 := by
        conv => lhs; rw [h5]
        simp [content]
      obtain ⟨i1, i2⟩ := ih (get k src).2.2
      refine ⟨fun src' h => ?_, fun d e src' h => ?_⟩
      · obtain ⟨j1, j2⟩ := i1 src' h
        refine ⟨?_, j2.trans hce.symm⟩
        rw [List.replicate_succ, List.cons_append, ← j1]; exact h5
      · obtain ⟨j1, j2⟩ := i2 d e src' h
        refine ⟨j1, ?_⟩
        rw [hce]
        cases e with
        | none =>
          obtain ⟨k1, k2, k3⟩ := j2
          have := g3 h2
          exact ⟨k1, by omega, fun hi => g5 h2 (k3 hi)⟩
        | some e => exact j2

/-- What holds of a call that has counted `n` bytes so far, in terms of what it began with. -/
theorem loop_spec : ∀ (f : Nat) (s : Wr) (src : Source) (n : Nat) (s0 : Wr) (src0 : Source) (r : Res),
    0 < s.cap → s.buf.length ≤ s.cap → s.err = none →
    s.out ++ s.buf = s0.out ++ s0.buf ++ (content src0).1.take n → (∃ d, s.out = s0.out ++ d) →
    n ≤ (content src0).1.length → (content src).1 = (content src0).1.drop n → (content src).2 = (content src0).2 →
    (Idle src → Idle src0) →
    readFromLoop f s src n = some r → Copied s0 src0 r := by
  intro f
  induction f with
  | zero => intro s src n s0 src0 r _ _ _ _ _ _ _ _ _ h; cases h
  | succ f ih =>
    intro s src n s0 src0 r hc hr he hb hg hn h1 h2 hi h
    unfold readFromLoop at h
    simp only at h
    -- the flush at the top
    have gf : ∀ e s1, (if s.cap - s.buf.length = 0 then flush s else (none, s)) = (e, s1) →
        s1.out ++ s1.buf = s.out ++ s.buf ∧ (∃ d, s1.out = s.out ++ d) ∧ s1.cap = s.cap ∧ s1.err = e ∧
        (e = none → s1.buf.length < s1.cap) := by
      intro e s1 hq
      by_cases ha : s.cap - s.buf.length = 0
      · rw [if_pos ha] at hq
        have g := flush_good s
        have g' := flush_empties s
        rw [hq] at g g'
        refine ⟨by simpa using g.bytes, g.grows, g.cap, g.err.symm, fun hx => ?_⟩
        have := g' hx
        simp only at this
        rw [this]
        have := g.cap
        simp only at this
        simp; omega
      · rw [if_neg ha] at hq
        simp only [Prod.mk.injEq] at hq
        obtain ⟨hq1, hq2⟩ := hq
        subst hq1 hq2
        exact ⟨rfl, ⟨[], by simp⟩, rfl, he, fun _ => by omega⟩
    match hq : (if s.cap - s.buf.length = 0 then flush s else (none, s)) with
    | (some e, s1) =>
      rw [hq] at h
      obtain ⟨f1, ⟨d2, f2⟩, f3, f4, f5⟩ := gf _ _ hq
      simp only [Option.some.injEq] at h
      subst h
      obtain ⟨d0, hg⟩ := hg
      refine ⟨by simp only; rw [f1, hb], ⟨d0 ++ d2, by simp only; rw [f2, hg]; simp⟩, hn, fun _ => ⟨h1, h2⟩,
        fun hx => by simp at hx, fun x hx => by simp at hx, fun e' hx => ?_, fun hx => by simp at hx⟩
      simp only [Option.some.injEq, FE.write.injEq] at hx
      subst hx; exact f4
    | (none, s1) =>
      rw [hq] at h
      obtain ⟨f1, ⟨d2, f2⟩, f3, f4, f5⟩ := gf _ _ hq
      have f5 := f5 rfl
      simp only at h
      obtain ⟨k1, k2⟩ := getSome_spec (s1.cap - s1.buf.length) (by omega) 100 src
      obtain ⟨d0, hg⟩ := hg
      have hgrow : ∃ d, s1.out = s0.out ++ d := ⟨d0 ++ d2, by rw [f2, hg]; simp⟩
      match hs : getSome (s1.cap - s1.buf.length) 100 src with
      | (none, src') =>
        rw [hs] at h
        simp only [Option.some.injEq] at h
        subst h
        obtain ⟨j1, j2⟩ := k1 _ hs
        refine ⟨by simp only; rw [f1, hb], hgrow, hn, fun _ => ⟨by simp only; rw [j2, h1], by simp only; rw [j2, h2]⟩,
          fun hx => by simp at hx, fun x hx => by simp at hx, fun e' hx => by simp at hx, fun _ => ⟨hi ⟨[], src', by simpa using j1⟩, f4⟩⟩
      | (some (d, none), src') =>
        rw [hs] at h
        obtain ⟨j1, j2, j3, j4⟩ := k2 _ _ _ hs
        simp only at h
        have hl : d.length ≤ (content src0).1.length - n := by
          have := congrArg List.length h1
          rw [j2] at this; simp at this; omega
        have hd : (content src0).1.drop n = d ++ (content src').1 := by rw [← h1, j2]
        refine ih { s1 with buf := s1.buf ++ d } src' (n + d.length) s0 src0 r (by rw [show _ = s.cap from f3]; exact hc) ?_ f4 ?_ hgrow
          (by omega) ?_ ?_ (fun x => hi (j4 x)) h
        · simp only [List.length_append]; omega
        · simp only
          rw [List.take_add, hd, List.take_left, ← List.append_assoc, f1, hb, List.append_assoc]
        · rw [← List.drop_drop, hd]; simp
        · rw [← h2, j2]
      | (some (d, some e), src') =>
        rw [hs] at h
        obtain ⟨j1, j2⟩ := k2 _ _ _ hs
        simp only at j2
        have hd : (content src0).1.drop n = d := by rw [← h1, j2]
        have he2 : (content src0).2 = e := by rw [← h2, j2]
        have hl : n + d.length = (content src0).1.length := by
          have := congrArg List.length hd; simp at this; omega
        have hall : s1.out ++ (s1.buf ++ d) = s0.out ++ s0.buf ++ (content src0).1.take (n + d.length) := by
          rw [← List.append_assoc, f1, hb, hl, List.take_of_length_le (Nat.le_refl _), List.append_assoc]
          conv => lhs; rw [← hd]
          rw [List.take_append_drop]
        cases e with
        | other x =>
          simp only [Option.some.injEq] at h
          subst h
          refine ⟨hall, hgrow, by simp only; omega, fun hx => by simp only at hx; omega, fun hx => by simp at hx,
            fun y hx => ?_, fun e' hx => by simp at hx, fun hx => by simp at hx⟩
          simp only [Option.some.injEq, FE.read.injEq] at hx
          subst hx
          exact ⟨hl, he2, f4⟩
        | eof =>
          simp only at h
          by_cases ha : s1.cap - (s1.buf ++ d).length = 0
          · rw [if_pos ha] at h
            simp only [Option.some.injEq] at h
            subst h
            have g := flush_good { s1 with buf := s1.buf ++ d }
            have g' := flush_empties { s1 with buf := s1.buf ++ d }
            obtain ⟨d3, g2⟩ := g.grows
            obtain ⟨d4, hg4⟩ := hgrow
            refine ⟨?_, ⟨d4 ++ d3, by simp only at g2 ⊢; rw [g2, hg4]; simp⟩, by simp only; omega,
              fun hx => by simp only at hx; omega, fun hx => ?_, fun y hx => ?_, fun e' hx => ?_, fun hx => ?_⟩
            · have := g.bytes
              simp only [List.take_nil, List.append_nil] at this
              rw [this, hall]
            · simp only [Option.map_eq_none_iff] at hx
              refine ⟨hl, he2, ?_, ?_⟩
              · simp only; rw [← g.err, hx]
              · simp only; rw [g' hx, g.cap, show (Wr.cap _) = s.cap from f3]; simpa using hc
            · simp only at hx
              cases hq2 : (flush { s1 with buf := s1.buf ++ d }).1 <;> rw [hq2] at hx <;> simp at hx
            · simp only at hx ⊢
              rw [← g.err]
              cases hq2 : (flush { s1 with buf := s1.buf ++ d }).1 <;> rw [hq2] at hx <;> simp at hx
              rw [hx]
            · simp only at hx
              cases hq2 : (flush { s1 with buf := s1.buf ++ d }).1 <;> rw [hq2] at hx <;> simp at hx
          · rw [if_neg ha] at h
            simp only [Option.some.injEq] at h
            subst h
            exact ⟨hall, hgrow, by simp only; omega, fun hx => by simp only at hx; omega,
              fun _ => ⟨hl, he2, f4, by simp only at ha ⊢; omega⟩, fun y hx => by simp at hx, fun e' hx => by simp at hx, fun hx => by simp at hx⟩

/-- **`ReadFrom` copies the source**: what was written or is buffered grows by exactly the counted bytes of the source, in order; without
an error the whole source was taken up to its end of file, and there is room in the buffer; an error of the source is reported after
all of its bytes were taken, and the writer works on; an error of the underlying writer is reported, and whatever was not
counted is still in the source; `ErrNoProgress` is reported only for a source that gave nothing a hundred times. -/
theorem read_from_copies_partial (s : Wr) (src : Source) (r : Res) (hc : 0 < s.cap) (hr : s.buf.length ≤ s.cap) (h : readFrom s src = some r) :
    Copied s src r := by
  unfold readFrom at h
  cases he : s.err with
  | some e =>
    rw [he] at h
    simp only [Option.some.injEq] at h
    subst h
    refine ⟨by simp, ⟨[], by simp⟩, by simp, fun _ => by simp, fun hx => by simp at hx, fun x hx => by simp at hx, fun e' hx => ?_,
      fun hx => by simp at hx⟩
    simp only [Option.some.injEq, FE.write.injEq] at hx
    rw [← hx]; exact he
  | none =>
    rw [he] at h
    exact loop_spec _ s src 0 s src r hc hr he (by simp) ⟨[], by simp⟩ (by simp) (by simp) rfl (fun h => h) h

theorem loop_total : ∀ (f : Nat) (s : Wr) (src : Source) (n : Nat), 0 < s.cap → s.buf.length ≤ s.cap → s.err = none →
    bytesOf src < f → (readFromLoop f s src n).isSome := by
  intro f
  induction f with
  | zero => intro s src n _ _ _ h; omega
  | succ f ih =>
    intro s src n hc hr he hf
    unfold readFromLoop
    simp only
    match hq : (if s.cap - s.buf.length = 0 then flush s else (none, s)) with
    | (some e, s1) => rfl
    | (none, s1) =>
      simp only
      have hroom : s1.buf.length < s1.cap ∧ s1.err = none := by
        by_cases ha : s.cap - s.buf.length = 0
        · rw [if_pos ha] at hq
          have g := flush_good s
          have g' := flush_empties s
          rw [hq] at g g'
          have hb := g' rfl
          have hcap := g.cap
          have := g.err
          simp only at hb hcap this
          refine ⟨?_, this.symm⟩
          rw [hb, hcap]; simpa using hc
        · rw [if_neg ha] at hq
          simp only [Prod.mk.injEq, true_and] at hq
          subst hq
          exact ⟨by omega, he⟩
      obtain ⟨-, k2⟩ := getSome_spec (s1.cap - s1.buf.length) (by omega) 100 src
      match hs : getSome (s1.cap - s1.buf.length) 100 src with
      | (none, src') => rfl
      | (some (d, none), src') =>
        obtain ⟨j1, j2, j3, j4⟩ := k2 _ _ _ hs
        simp only
        refine ih _ _ _ ?_ ?_ hroom.2 (by omega)
        · simp only; omega
        · simp only [List.length_append]; omega
      | (some (d, some (.other x)), src') => rfl
      | (some (d, some .eof), src') =>
        simp only
        split <;> rfl

/-- `ReadFrom` returns. -/
theorem readFrom_returns (s : Wr) (src : Source) (hc : 0 < s.cap) (hr : s.buf.length ≤ s.cap) : (readFrom s src).isSome := by
  unfold readFrom
  cases he : s.err with
  | some e => rfl
  | none => exact loop_total _ s src 0 hc hr he (by omega)

/-- Without errors of the underlying writer, and with a source that is not idle, everything is copied. -/
theorem copies_all (s : Wr) (src : Source) (r : Res) (hc : 0 < s.cap) (hr : s.buf.length ≤ s.cap) (h : readFrom s src = some r)
    (hw : ∀ e, r.wr.err ≠ some e) (hi : ¬ Idle src) :
    r.wr.out ++ r.wr.buf = s.out ++ s.buf ++ (content src).1 ∧ r.n = (content src).1.length ∧
    r.err = (match (content src).2 with | .eof => none | .other x => some (.read x)) := by
  have c := read_from_copies_partial s src r hc hr h
  have key : r.n = (content src).1.length ∧ r.err = (match (content src).2 with | .eof => none | .other x => some (.read x)) := by
    cases he : r.err with
    | none =>
      obtain ⟨a, b, -⟩ := c.done he
      exact ⟨a, by rw [b]⟩
    | some e =>
      cases e with
      | write e => exact absurd (c.writeErr e he) (hw e)
      | read x =>
        obtain ⟨a, b, -⟩ := c.readErr x he
        exact ⟨a, by rw [b]⟩
      | noProgress => exact absurd (c.idle he).1 hi
  refine ⟨?_, key.1, key.2⟩
  rw [c.bytes, key.1, List.take_length]

/-! ## Onto an underlying `io.ReaderFrom` -/

/-- libcs/bufio/bufio.go:728-734: with nothing buffered an underlying `io.ReaderFrom` copies by itself, and its error is kept.
Simplified: it takes everything that the source gives (its own writes succeed). -/
def readFromDirect (s : Wr) (src : Source) : Option Res :=
  match s.err with
  | some e => some ⟨0, some (.write e), s, src⟩
  | none =>
    if s.buf.length = 0 then
      let c := content src
      let e := match c.2 with | .eof => none | .other x => some (WE.other x)
      some ⟨c.1.length, e.map .write, { s with out := s.out ++ c.1, err := e }, []⟩
    else readFrom s src

/-- The bytes arrive here, too. -/
theorem direct_copies (s : Wr) (src : Source) (r : Res) (he : s.err = none) (hb : s.buf = []) (h : readFromDirect s src = some r) :
    r.wr.out = s.out ++ (content src).1 ∧ r.n = (content src).1.length ∧ (r.err = none ↔ (content src).2 = .eof) := by
  unfold readFromDirect at h
  rw [he, hb] at h
  simp only [List.length_nil, if_pos, Option.some.injEq] at h
  subst h
  refine ⟨rfl, rfl, ?_⟩
  cases (content src).2 <;> simp

/-- **Proved false: that an error of the source leaves the writer usable, for an underlying writer that is an `io.ReaderFrom`**: the
error is kept, and every later call takes nothing and reports the error of the source again. -/
theorem source_error_sticks (s : Wr) (src : Source) (x : Nat) (r : Res) (op : Op) (hop : op.Ok) (hc : 0 < s.cap) (he : s.err = none)
    (hb : s.buf = []) (hx : (content src).2 = .other x) (h : readFromDirect s src = some r) (n : Nat) (e : Option WE) (s' : Wr)
    (hcall : call r.wr op = some ((n, e), s')) : n = 0 ∧ e = some (.other x) ∧ s' = r.wr := by
  unfold readFromDirect at h
  rw [he, hb] at h
  simp only [List.length_nil, if_pos, Option.some.injEq, hx] at h
  have hwe : r.wr.err = some (.other x) := by rw [← h]
  have hcap : 0 < r.wr.cap := by rw [← h]; exact hc
  have g := one_call r.wr op hop hcap n e s' hcall
  obtain ⟨a, b, c⟩ := g.stuck (by rw [hwe]; simp)
  exact ⟨b, by rw [c, hwe], a⟩

/-! ## Concrete cases -/

/-- A buffer of 4 bytes with 2 in it; the source gives 3 bytes, nothing, then 2 with the end of file. -/
example : readFrom ⟨4, [1, 2], none, [], []⟩ [([3, 4, 5], none), ([], none), ([6, 7], some .eof)] =
    some ⟨5, none, ⟨4, [5, 6, 7], none, [], [1, 2, 3, 4]⟩, []⟩ := by decide +kernel

/-- The second flush fails: the last byte stays in the source. -/
example : readFrom ⟨2, [], none, [(9, none), (1, some 7)], []⟩ [([1, 2, 3, 4, 5], none)] =
    some ⟨4, some (.write (.other 7)), ⟨2, [4], some (.other 7), [], [1, 2, 3]⟩, [([5], none)]⟩ := by decide +kernel

example : (readFrom ⟨2, [], none, [], []⟩ (([1], none) :: List.replicate 100 ([], none))).map (fun r => (r.n, r.err)) =
    some (1, some .noProgress) := by decide +kernel

/-- The same failing source: buffered, the writer works on; handed over, it does not. -/
example : ((readFrom ⟨4, [], none, [], []⟩ [([1], some (.other 5))]).bind (fun r => write r.wr [2])).map (·.1) = some (1, none) ∧
    ((readFromDirect ⟨4, [], none, [], []⟩ [([1], some (.other 5))]).bind (fun r => write r.wr [2])).map (·.1) =
      some (0, some (.other 5)) := by decide +kernel

end Verif.Bufio.Writer
