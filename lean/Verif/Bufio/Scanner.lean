import Verif.Bufio.Model
set_option linter.unusedSimpArgs false
set_option linter.unusedVariables false
/-!
# C145: the scanner (libcs/bufio/scan.go)

The underlying reader is the script of `Verif.Bufio.Model` (any segmentation, empty reads, errors at any place). Not
modelled: readers that return impossible counts. `ScanRunes` is in `Verif.Bufio.Runes`, `ScanWords` in `Verif.Bufio.Words`.
-/
namespace Verif.Bufio.Scanner
open Verif Verif.Bufio

/-- The errors of a scanner: of the reader, `ErrTooLong`, `ErrAdvanceTooFar`, of the split function. -/
inductive SE where
  | io (e : Err)
  | tooLong
  | advanceTooFar
  | split (n : Nat)
deriving DecidableEq, Repr

/-- What a split function answers (libcs/bufio/scan.go:64 `SplitFunc`): how far to go on and perhaps a token; or
`ErrFinalToken` with a token; or another error. -/
inductive Ans where
  | ok (adv : Nat) (tok : Option Bytes)
  | final (tok : Option Bytes)
  | fail (n : Nat)
deriving DecidableEq, Repr

abbrev Split := Bytes → Bool → Ans

/-- libcs/bufio/scan.go:30-42 `Scanner`: `cap` is `len(s.buf)`, `data` is `s.buf[s.start:s.end]`. -/
structure Sc where
  max : Nat
  cap : Nat
  start : Nat
  data : Bytes
  err : Option SE
  empties : Nat
  done : Bool
  src : Script
deriving DecidableEq, Repr

/-- libcs/bufio/scan.go:87-93 `NewScanner` and 267-273 `Buffer` (a buffer of `cap` bytes; without `Buffer`: 0 and 65536). -/
def new (cap max : Nat) (src : Script) : Sc := ⟨max, cap, 0, [], none, 0, false, src⟩

/-- libcs/bufio/scan.go:252-256 `setErr`. -/
def setErr (e : SE) (s : Sc) : Sc := if s.err = none ∨ s.err = some (.io .eof) then { s with err := some e } else s

inductive Res where
  | yes (tok : Option Bytes)
  | no
  | panic
deriving DecidableEq, Repr

inductive Try where
  | ret (r : Res) (s : Sc)
  | more (s : Sc)
deriving DecidableEq, Repr

/-- libcs/bufio/scan.go:145-175 and 238-249 `advance`: the first part of the loop, a token from what is there. -/
def attempt (sp : Split) (s : Sc) : Try :=
  if s.data ≠ [] ∨ s.err ≠ none then
    match sp s.data (s.err != none) with
    | .final t => .ret (.yes t) { s with done := true }
    | .fail n => .ret .no (setErr (.split n) s)
    | .ok adv tok =>
      if adv > s.data.length then .ret .no (setErr .advanceTooFar s)
      else match tok with
        | some t =>
          if s.err = none ∨ adv > 0 then
            .ret (.yes (some t)) { s with start := s.start + adv, data := s.data.drop adv, empties := 0 }
          else if s.empties + 1 > 100 then
            .ret .panic { s with start := s.start + adv, data := s.data.drop adv, empties := s.empties + 1 }
          else .ret (.yes (some t)) { s with start := s.start + adv, data := s.data.drop adv, empties := s.empties + 1 }
        | none => .more { s with start := s.start + adv, data := s.data.drop adv }
  else .more s

/-- libcs/bufio/scan.go:187-191: the shift. -/
def shift (s : Sc) : Sc :=
  if s.start > 0 ∧ (s.start + s.data.length = s.cap ∨ s.start > s.cap / 2) then { s with start := 0 } else s

/-- libcs/bufio/scan.go:199-205: the size of the new buffer. -/
def newSize (cap max : Nat) : Nat :=
  let n := if cap * 2 = 0 then 4096 else cap * 2
  if n > max then max else n

/-- libcs/bufio/scan.go:193-211: a larger buffer if this one is full; `none`: `ErrTooLong`. (The test against overflow of
`int` is left out.) -/
def resize (s : Sc) : Option Sc :=
  if s.start + s.data.length = s.cap then
    if s.cap ≥ s.max then none
    else some { s with cap := newSize s.cap s.max, start := 0 }
  else some s

/-- libcs/bufio/scan.go:215-234: the reads; `readLoop 101`. -/
def readLoop : Nat → Sc → Sc
  | 0, s => setErr (.io .noProgress) s
  | i + 1, s =>
    let q := srcRead s.src (s.cap - (s.start + s.data.length))
    match q.2.1 with
    | some e => setErr (.io e) { s with data := s.data ++ q.1, src := q.2.2 }
    | none =>
      if q.1.length > 0 then { s with data := s.data ++ q.1, src := q.2.2, empties := 0 }
      else readLoop i { s with data := s.data ++ q.1, src := q.2.2 }

/-- libcs/bufio/scan.go:141-235: the loop of `Scan`. `none`: out of fuel. -/
def scanLoop (sp : Split) : Nat → Sc → Option (Res × Sc)
  | 0, _ => none
  | f + 1, s =>
    match attempt sp s with
    | .ret r s => some (r, s)
    | .more s =>
      if s.err ≠ none then some (.no, { s with start := 0, data := [] })
      else match resize (shift s) with
        | none => some (.no, setErr .tooLong (shift s))
        | some s => scanLoop sp f (readLoop 101 s)

/-- What is left to read, in bytes and results. -/
def weight (src : Script) : Nat := (src.map (fun x => x.1.length + 1)).sum

/-- libcs/bufio/scan.go:135-236 `Scan`. -/
def scan (sp : Split) (s : Sc) : Option (Res × Sc) :=
  if s.done then some (.no, s) else scanLoop sp (weight s.src + 3) s

/-- libcs/bufio/scan.go:96-101 `Err`. -/
def errOf (s : Sc) : Option SE := if s.err = some (.io .eof) then none else s.err

/-- The usual loop `for s.Scan() { use(s.Bytes()) }`: the tokens and the scanner after it. -/
def scanAll (sp : Split) : Nat → Sc → Option (List (Option Bytes) × Sc)
  | 0, _ => none
  | f + 1, s =>
    match scan sp s with
    | some (.yes t, s) => (scanAll sp f s).map fun q => (t :: q.1, q.2)
    | some (.no, s) => some ([], s)
    | _ => none

/-! ## Split functions -/

/-- libcs/bufio/scan.go:289-294 `ScanBytes`. -/
def scanBytes : Split := fun data atEOF =>
  if atEOF = true ∧ data.length = 0 then .ok 0 none else .ok 1 (some (data.take 1))

/-- libcs/bufio/scan.go:337-342 `dropCR`. -/
def dropCR (data : Bytes) : Bytes := if data.getLast? = some 13 then data.dropLast else data

/-- libcs/bufio/scan.go:350-364 `ScanLines`. -/
def scanLines : Split := fun data atEOF =>
  if atEOF = true ∧ data.length = 0 then .ok 0 none
  else match data.idxOf? 10 with
    | some i => .ok (i + 1) (some (dropCR (data.take i)))
    | none => if atEOF = true then .ok data.length (some (dropCR data)) else .ok 0 none

/-! ## Specification -/

/-- What the reader delivers up to its first error, and that error. -/
def stream : Script → Bytes × Err
  | [] => ([], .eof)
  | (bs, none) :: r => (bs ++ (stream r).1, (stream r).2)
  | (bs, some e) :: _ => (bs, e)

/-- The reader never delivers nothing more than 100 times in a row. -/
def Lively : Script → Prop
  | [] => True
  | x :: xs => ((x :: xs).takeWhile (fun y => y.1.isEmpty && y.2.isNone)).length ≤ 100 ∧ Lively xs

/-- A line without the carriage return at its end. -/
def withoutCR : Bytes → Bytes
  | [] => []
  | b :: t => if t = [] then (if b = 13 then [] else [b]) else b :: withoutCR t

/-- The lines of a text: what stands between line ends, without a carriage return before the line end or the end of the
text; what comes after the last line end is a line if it is not empty. `acc`: the current line so far. -/
def linesFrom (acc : Bytes) : Bytes → List Bytes
  | [] => if acc = [] then [] else [withoutCR acc]
  | b :: t => if b = 10 then withoutCR acc :: linesFrom [] t else linesFrom (acc ++ [b]) t

def lines (t : Bytes) : List Bytes := linesFrom [] t

/-- The longest stretch without line end is shorter than `lim`. `n`: bytes since the last line end. -/
def Short (lim : Nat) : Nat → Bytes → Prop
  | n, [] => n < lim
  | n, b :: t => if b = 10 then n < lim ∧ Short lim 0 t else Short lim (n + 1) t

/-! ## Lemmas on the parts -/

theorem dropCR_eq (d : Bytes) : dropCR d = withoutCR d := by
  induction d with
  | nil => rfl
  | cons b t ih =>
    unfold withoutCR
    cases t with
    | nil =>
      unfold dropCR
      by_cases h : b = 13
      · simp [h]
      · simp [h]
    | cons c t =>
      rw [if_neg (by simp), ← ih]
      unfold dropCR
      rw [List.getLast?_cons_cons]
      split
      · rw [List.dropLast_cons_of_ne_nil (by simp)]
      · rfl


/-- A split function that decides the same way however much of the rest is already there. -/
structure Good (sp : Split) : Prop where
  tok : ∀ d n t, d ≠ [] → sp d false = .ok n t → (t = none ∧ n = 0) ∨
    (∃ t', t = some t' ∧ 0 < n ∧ n ≤ d.length ∧ ∀ x b, sp (d ++ x) b = .ok n (some t'))
  ok : ∀ d b, d ≠ [] ∨ b = true → ∃ n t, sp d b = .ok n t
  eof : ∀ d n t, sp d true = .ok n (some t) → 0 < n ∧ n ≤ d.length
  eofNone : ∀ d n, sp d true = .ok n none → n ≤ d.length

/-- What a scanner still has to deliver. -/
def Rem (s : Sc) (R : Bytes) (e : Err) : Prop :=
  s.done = false ∧ s.start + s.data.length ≤ s.cap ∧
  ((s.err = none ∧ R = s.data ++ (stream s.src).1 ∧ e = (stream s.src).2 ∧ Lively s.src) ∨
   (s.err = some (.io e) ∧ R = s.data))

def lim (s : Sc) : Nat := if s.cap ≤ s.max then s.max else s.cap

theorem srcRead_cases (src : Script) (m : Nat) (hm : 0 < m) :
    (∃ e, (srcRead src m).2.1 = some e ∧ (srcRead src m).1 = (stream src).1 ∧ e = (stream src).2 ∧
      (srcRead src m).1.length ≤ m) ∨
    ((srcRead src m).2.1 = none ∧ (stream src).1 = (srcRead src m).1 ++ (stream (srcRead src m).2.2).1 ∧
      (stream src).2 = (stream (srcRead src m).2.2).2 ∧ (srcRead src m).1.length ≤ m ∧
      weight (srcRead src m).2.2 < weight src ∧
      (((srcRead src m).1.length = 0 ∧ ∃ r, src = ([], none) :: r ∧ (srcRead src m).2.2 = r) ∨
       (0 < (srcRead src m).1.length ∧ (Lively src → Lively (srcRead src m).2.2)))) := by
  cases src with
  | nil => exact Or.inl ⟨.eof, rfl, rfl, rfl, by simp [srcRead]⟩
  | cons x r =>
    obtain ⟨bs, e⟩ := x
    by_cases h : bs.length ≤ m
    · have hs : srcRead ((bs, e) :: r) m = (bs, e, r) := by simp [srcRead, h]
      rw [hs]
      cases e with
      | some e => exact Or.inl ⟨e, rfl, rfl, rfl, h⟩
      | none =>
        refine Or.inr ⟨rfl, rfl, rfl, h, by simp [weight], ?_⟩
        by_cases hb : bs.length = 0
        · refine Or.inl ⟨hb, r, ?_, rfl⟩
          rw [List.length_eq_zero_iff.1 hb]
        · exact Or.inr ⟨by dsimp only; omega, fun hl => hl.2⟩
    · have hs : srcRead ((bs, e) :: r) m = (bs.take m, none, (bs.drop m, e) :: r) := by simp [srcRead, h]
      rw [hs]
      refine Or.inr ⟨rfl, ?_, ?_, by simp; omega, by simp [weight]; omega, Or.inr ⟨by simp; omega, fun hl => ?_⟩⟩
      · cases e with
        | none => simp only [stream]; rw [← List.append_assoc, List.take_append_drop]
        | some e => simp only [stream]; rw [List.take_append_drop]
      · cases e with
        | none => rfl
        | some e => rfl
      · refine ⟨?_, hl.2⟩
        have : ¬ (bs.drop m = []) := by
          intro h0; have := congrArg List.length h0; simp at this; omega
        have hf : ((bs.drop m, e).1.isEmpty && (bs.drop m, e).2.isNone) = false := by
          simp [this]
        rw [List.takeWhile_cons, hf]
        simp

/-- The number of empty results at the beginning. -/
def emptiesAhead (src : Script) : Nat := (src.takeWhile (fun y => y.1.isEmpty && y.2.isNone)).length

theorem lively_ahead (src : Script) (h : Lively src) : emptiesAhead src ≤ 100 := by
  cases src with
  | nil => simp [emptiesAhead]
  | cons x xs => exact h.1

/-- The reads of one round: something more is there, or the error. -/
theorem readLoop_spec : ∀ (k : Nat) (s : Sc) (R : Bytes) (e : Err), Rem s R e → s.err = none →
    s.start + s.data.length < s.cap → emptiesAhead s.src < k →
    Rem (readLoop k s) R e ∧ (readLoop k s).cap = s.cap ∧ (readLoop k s).max = s.max ∧
      ((readLoop k s).err ≠ none ∨
        ((readLoop k s).err = none ∧ weight (readLoop k s).src < weight s.src ∧ (readLoop k s).data ≠ [])) := by
  intro k
  induction k with
  | zero => intro s R e _ _ _ h; omega
  | succ k ih =>
    intro s R e hr he hroom hk
    obtain ⟨hd, hfit, hr⟩ := hr
    have hr : R = s.data ++ (stream s.src).1 ∧ e = (stream s.src).2 ∧ Lively s.src := by
      rcases hr with hr | hr
      · exact hr.2
      · rw [he] at hr; cases hr.1
    obtain ⟨hR, hE, hL⟩ := hr
    have hq := srcRead_cases s.src (s.cap - (s.start + s.data.length)) (by omega)
    unfold readLoop
    generalize srcRead s.src (s.cap - (s.start + s.data.length)) = q at hq ⊢
    rcases hq with ⟨e', h1, h2, h3, h4⟩ | ⟨h1, h2, h3, h4, h5, h6⟩
    · simp only [h1]
      have hset : ∀ t : Sc, t.err = none → setErr (.io e') t = { t with err := some (.io e') } := by
        intro t ht
        unfold setErr; rw [if_pos (Or.inl ht)]
      rw [hset { s with data := s.data ++ q.1, src := q.2.2 } he]
      refine ⟨⟨hd, ?_, Or.inr ⟨?_, ?_⟩⟩, rfl, rfl, Or.inl (by simp)⟩
      · dsimp only; rw [List.length_append]; omega
      · dsimp only; rw [hE, h3]
      · dsimp only; rw [hR, h2]
    · simp only [h1]
      rcases h6 with ⟨h6, r, hsrc, hrest⟩ | ⟨h6, h7⟩
      · rw [if_neg (by omega)]
        have hnil : q.1 = [] := List.length_eq_zero_iff.1 h6
        have hkk : emptiesAhead s.src = emptiesAhead r + 1 := by
          rw [hsrc]; simp [emptiesAhead, List.takeWhile_cons]
        have hrem : Rem { s with data := s.data ++ q.1, src := q.2.2 } R e := by
          refine ⟨hd, by dsimp only; rw [hnil]; simpa using hfit, Or.inl ⟨he, ?_, ?_, ?_⟩⟩
          · dsimp only; rw [hR, h2, List.append_assoc]
          · dsimp only; rw [hE, h3]
          · dsimp only; rw [hrest]; rw [hsrc] at hL; exact hL.2
        obtain ⟨i1, i2, i3, i4⟩ := ih _ R e hrem he
          (by dsimp only; rw [hnil]; simpa using hroom)
          (by dsimp only; rw [hrest]; omega)
        refine ⟨i1, i2, i3, ?_⟩
        rcases i4 with i4 | ⟨i4, i5, i6⟩
        · exact Or.inl i4
        · exact Or.inr ⟨i4, by dsimp only at i5; omega, i6⟩
      · rw [if_pos h6]
        refine ⟨⟨hd, by dsimp only; rw [List.length_append]; omega, Or.inl ⟨he, ?_, ?_, h7 hL⟩⟩, rfl, rfl,
          Or.inr ⟨he, h5, ?_⟩⟩
        · dsimp only; rw [hR, h2, List.append_assoc]
        · dsimp only; rw [hE, h3]
        · dsimp only
          intro h0
          have := congrArg List.length h0
          simp at this
          rw [this.2] at h6
          exact absurd h6 (by simp)

theorem shift_spec (s : Sc) (R : Bytes) (e : Err) (h : Rem s R e) :
    Rem (shift s) R e ∧ (shift s).cap = s.cap ∧ (shift s).max = s.max ∧ (shift s).err = s.err ∧ (shift s).src = s.src ∧
      (shift s).data = s.data ∧ ((shift s).start + s.data.length = s.cap → s.data.length = s.cap) := by
  obtain ⟨h1, h2, h3⟩ := h
  unfold shift
  split
  · refine ⟨⟨h1, by dsimp only; omega, h3⟩, rfl, rfl, rfl, rfl, rfl, ?_⟩
    dsimp only; omega
  · rename_i hc
    refine ⟨⟨h1, h2, h3⟩, rfl, rfl, rfl, rfl, rfl, fun hx => ?_⟩
    by_cases hs : s.start > 0
    · exact absurd ⟨hs, Or.inl hx⟩ hc
    · omega

theorem newSize_spec (cap max : Nat) (h : cap < max) : cap < newSize cap max ∧ newSize cap max ≤ max := by
  unfold newSize
  dsimp only
  split <;> split <;> omega

theorem resize_spec (s : Sc) (R : Bytes) (e : Err) (h : Rem s R e) (hf : s.start + s.data.length = s.cap → s.cap < s.max) :
    ∃ s', resize s = some s' ∧ Rem s' R e ∧ s'.err = s.err ∧ s'.src = s.src ∧ s'.data = s.data ∧
      lim s' = lim s ∧ s'.start + s'.data.length < s'.cap := by
  obtain ⟨h1, h2, h3⟩ := h
  unfold resize
  by_cases hc : s.start + s.data.length = s.cap
  · rw [if_pos hc, if_neg (by have := hf hc; omega)]
    obtain ⟨n1, n2⟩ := newSize_spec s.cap s.max (hf hc)
    refine ⟨_, rfl, ⟨h1, by dsimp only; omega, h3⟩, rfl, rfl, rfl, ?_, by dsimp only; omega⟩
    unfold lim
    dsimp only
    rw [if_pos n2, if_pos (by omega)]
  · rw [if_neg hc]
    exact ⟨s, rfl, ⟨h1, h2, h3⟩, rfl, rfl, rfl, rfl, by omega⟩

/-- The whole of what is left, if it were all there, is split as the scanner does it. -/
theorem scanLoop_spec (sp : Split) (g : Good sp) : ∀ (f : Nat) (s : Sc) (R : Bytes) (e : Err), Rem s R e →
    (s.err = none → weight s.src + 2 ≤ f) → 1 ≤ f → 0 < lim s →
    (R.length < lim s ∨ ∃ n t, sp (R.take (lim s)) false = .ok n (some t)) →
    (∀ n t, sp R true = .ok n (some t) →
      ∃ s', scanLoop sp f s = some (.yes (some t), s') ∧ Rem s' (R.drop n) e ∧ lim s' = lim s) ∧
    (∀ n, sp R true = .ok n none →
      ∃ s', scanLoop sp f s = some (.no, s') ∧ s'.err = some (.io e) ∧ s'.data = [] ∧ s'.done = false) := by
  intro f
  induction f with
  | zero => intro s R e _ _ h; omega
  | succ f ih =>
    intro s R e hr hf _ hpos hlim
    obtain ⟨hd, hfit, hr'⟩ := hr
    unfold scanLoop
    rcases hr' with ⟨he, hR, hE, hL⟩ | ⟨he, hR⟩
    · -- no error yet
      have hstay : ∀ (hx : s.data = [] ∨ sp s.data false = .ok 0 none), attempt sp s = .more s := by
        intro hx
        unfold attempt
        by_cases hnil : s.data = []
        · rw [if_neg (by simp [hnil, he])]
        · rw [if_pos (Or.inl hnil)]
          have h0 : sp s.data false = .ok 0 none := hx.resolve_left hnil
          have hb : (s.err != none) = false := by rw [he]; rfl
          rw [hb, h0]
          dsimp only
          rw [if_neg (by omega)]
          rfl
      by_cases htok : s.data ≠ [] ∧ ∃ n t, sp s.data false = .ok n (some t)
      · -- a token is there already
        obtain ⟨hnil, n, t, ht⟩ := htok
        rcases g.tok _ _ _ hnil ht with h | ⟨t', h1, h2, h3, h4⟩
        · cases h.1
        · cases h1
          have hall : sp R true = .ok n (some t) := by rw [hR]; exact h4 _ _
          have hat : attempt sp s = .ret (.yes (some t))
              { s with start := s.start + n, data := s.data.drop n, empties := 0 } := by
            unfold attempt
            rw [if_pos (Or.inl hnil)]
            have hb : (s.err != none) = false := by rw [he]; rfl
            rw [hb, ht]
            dsimp only
            rw [if_neg (by omega), if_pos (Or.inl he)]
          rw [hat]
          constructor
          · intro n' t' h'
            rw [hall] at h'
            cases h'
            refine ⟨_, rfl, ⟨hd, by dsimp only; rw [List.length_drop]; omega, Or.inl ⟨he, ?_, hE, hL⟩⟩, rfl⟩
            dsimp only
            rw [hR, List.drop_append_of_le_length h3]
          · intro n' h'
            rw [hall] at h'; cases h'
      · have hmore : s.data = [] ∨ sp s.data false = .ok 0 none := by
          by_cases hnil : s.data = []
          · exact Or.inl hnil
          · right
            obtain ⟨n, t, ht⟩ := g.ok s.data false (Or.inl hnil)
            rcases g.tok _ _ _ hnil ht with h | ⟨t', h1, _⟩
            · rw [ht, h.1, h.2]
            · exact absurd ⟨hnil, n, t', by rw [ht, h1]⟩ htok
        rw [hstay hmore]
        dsimp only
        rw [if_neg (by simp [he])]
        obtain ⟨s1, s2, s3, s4, s5, s6, s7⟩ := shift_spec s R e ⟨hd, hfit, Or.inl ⟨he, hR, hE, hL⟩⟩
        -- the buffer is not full at its largest size
        have hroom : (shift s).start + (shift s).data.length = (shift s).cap → (shift s).cap < (shift s).max := by
          intro hx
          rw [s6, s2] at hx
          have hfull := s7 hx
          rw [s2, s3]
          by_cases hm : s.cap < s.max
          · exact hm
          · exfalso
            have hlimc : lim s = s.cap := by
              unfold lim; split <;> omega
            rcases hlim with hl | ⟨n, t, ht⟩
            · rw [hlimc, hR, List.length_append] at hl; omega
            · rw [hlimc, hR, List.take_append_of_le_length (by omega), List.take_of_length_le (by omega)] at ht
              rcases hmore with h0 | h0
              · rw [h0] at ht
                have hcap0 : s.cap = 0 := by rw [← hfull, h0]; rfl
                omega
              · rw [h0] at ht; cases ht
        obtain ⟨s', r1, r2, r3, r4, r5, r6, r7⟩ := resize_spec _ R e s1 hroom
        rw [r1]
        dsimp only
        have he' : s'.err = none := by rw [r3, s4]; exact he
        have hL' : Lively s'.src := by rw [r4, s5]; exact hL
        obtain ⟨l1, l2, l3, l4⟩ := readLoop_spec 101 s' R e r2 he' r7 (by have := lively_ahead _ hL'; omega)
        have hlim' : lim (readLoop 101 s') = lim s := by
          have : lim (readLoop 101 s') = lim s' := by unfold lim; rw [l2, l3]
          rw [this, r6]; unfold lim; rw [s2, s3]
        have hwt : weight s'.src = weight s.src := by rw [r4, s5]
        have hf' := hf he
        obtain ⟨a, b⟩ := ih (readLoop 101 s') R e l1 (fun hn => by
          rcases l4 with l4 | ⟨_, l5, _⟩
          · exact absurd hn l4
          · omega) (by omega) (by omega) (by rw [hlim']; exact hlim)
        refine ⟨fun n t h => ?_, fun n h => ?_⟩
        · obtain ⟨s'', x1, x2, x3⟩ := a n t h
          exact ⟨s'', x1, x2, by rw [x3, hlim']⟩
        · exact b n h
    · -- the reader has ended
      have hb : (s.err != none) = true := by rw [he]; rfl
      constructor
      · intro n t h
        rw [hR] at h
        obtain ⟨p1, p2⟩ := g.eof _ _ _ h
        have hat : attempt sp s = .ret (.yes (some t))
            { s with start := s.start + n, data := s.data.drop n, empties := 0 } := by
          unfold attempt
          rw [if_pos (Or.inr (by simp [he])), hb, h]
          dsimp only
          rw [if_neg (by omega), if_pos (Or.inr p1)]
        rw [hat]
        refine ⟨_, rfl, ⟨hd, by dsimp only; rw [List.length_drop]; omega, Or.inr ⟨he, by dsimp only; rw [hR]⟩⟩, rfl⟩
      · intro n h
        rw [hR] at h
        have p := g.eofNone _ _ h
        have hat : attempt sp s = .more { s with start := s.start + n, data := s.data.drop n } := by
          unfold attempt
          rw [if_pos (Or.inr (by simp [he])), hb, h]
          dsimp only
          rw [if_neg (by omega)]
        rw [hat]
        dsimp only
        rw [if_pos (by simp [he])]
        exact ⟨_, rfl, he, rfl, hd⟩

/-! ## The usual loop -/

/-- The tokens of a whole text, split with all of it at hand. -/
def tokens (sp : Split) : Nat → Bytes → List Bytes
  | 0, _ => []
  | f + 1, R =>
    match sp R true with
    | .ok n (some t) => t :: tokens sp f (R.drop n)
    | _ => []

/-- From every place where a token begins: less than `l` bytes are left, or the next `l` bytes hold a whole token. -/
def Fits (sp : Split) (l : Nat) : Nat → Bytes → Prop
  | 0, _ => True
  | f + 1, R => (R.length < l ∨ ∃ n t, sp (R.take l) false = .ok n (some t)) ∧
    ∀ n t, sp R true = .ok n (some t) → Fits sp l f (R.drop n)

theorem scan_eq (sp : Split) (s : Sc) (h : s.done = false) : scan sp s = scanLoop sp (weight s.src + 3) s := by
  unfold scan; rw [h]; rfl

theorem scanAll_spec (sp : Split) (g : Good sp) (e : Err) : ∀ (m : Nat) (s : Sc) (R : Bytes), R.length < m → Rem s R e →
    0 < lim s → Fits sp (lim s) m R →
    ∃ s', (∀ f, R.length < f → scanAll sp f s = some ((tokens sp m R).map some, s')) ∧
      s'.err = some (.io e) ∧ s'.data = [] ∧ s'.done = false := by
  intro m
  induction m with
  | zero => intro s R h; omega
  | succ m ih =>
    intro s R hm hr hpos hfits
    obtain ⟨h1, h2⟩ := scanLoop_spec sp g (weight s.src + 3) s R e hr (fun _ => by omega) (by omega) hpos hfits.1
    have hsc := scan_eq sp s hr.1
    obtain ⟨n, t, hsp⟩ := g.ok R true (Or.inr rfl)
    cases t with
    | none =>
      obtain ⟨s', x1, x2, x3, x4⟩ := h2 n hsp
      refine ⟨s', fun f hf => ?_, x2, x3, x4⟩
      obtain ⟨f', rfl⟩ : ∃ f', f = f' + 1 := ⟨f - 1, by omega⟩
      unfold scanAll
      rw [hsc, x1]
      simp [tokens, hsp]
    | some t =>
      obtain ⟨s1, x1, x2, x3⟩ := h1 n t hsp
      obtain ⟨p1, p2⟩ := g.eof _ _ _ hsp
      obtain ⟨s', y1, y2, y3, y4⟩ := ih s1 (R.drop n) (by rw [List.length_drop]; omega) x2 (by omega)
        (by rw [x3]; exact hfits.2 n t hsp)
      refine ⟨s', fun f hf => ?_, y2, y3, y4⟩
      obtain ⟨f', rfl⟩ : ∃ f', f = f' + 1 := ⟨f - 1, by omega⟩
      unfold scanAll
      rw [hsc, x1]
      dsimp only
      rw [y1 f' (by rw [List.length_drop]; omega)]
      simp [tokens, hsp]

/-- After the end every further call says so again. -/
theorem after_end (sp : Split) (h0 : sp [] true = .ok 0 none) (s : Sc) (e : Err) (h1 : s.err = some (.io e))
    (h2 : s.data = []) (h3 : s.done = false) :
    ∃ s', scan sp s = some (.no, s') ∧ s'.err = some (.io e) ∧ s'.data = [] ∧ s'.done = false := by
  rw [scan_eq sp s h3]
  have : scanLoop sp (weight s.src + 3) s = some (.no, { s with start := 0, data := [] }) := by
    unfold scanLoop
    have hat : attempt sp s = .more s := by
      unfold attempt
      rw [if_pos (Or.inr (by simp [h1])), show (s.err != none) = true by rw [h1]; rfl, h2, h0]
      dsimp only
      rw [if_neg (by simp)]
      cases s; simp_all
    rw [hat]
    dsimp only
    rw [if_pos (by simp [h1])]
  exact ⟨_, this, h1, rfl, h3⟩

/-! ## Lines -/

theorem idx_some {d : Bytes} {i : Nat} (h : d.idxOf? 10 = some i) :
    ∃ a r, d = a ++ 10 :: r ∧ a.length = i ∧ (10 : UInt8) ∉ a := by
  induction d generalizing i with
  | nil => simp at h
  | cons b d ih =>
    rw [List.idxOf?_cons] at h
    by_cases hb : b = 10
    · rw [if_pos (by simp [hb])] at h
      cases h
      exact ⟨[], d, by simp [hb], rfl, by simp⟩
    · rw [if_neg (by simpa using hb)] at h
      cases hd : d.idxOf? 10 with
      | none => rw [hd] at h; cases h
      | some j =>
        rw [hd] at h
        cases h
        obtain ⟨a, r, h1, h2, h3⟩ := ih hd
        exact ⟨b :: a, r, by rw [h1]; rfl, by simp [h2], by simp [h3, Ne.symm hb]⟩

theorem idx_of {a r : Bytes} (h : (10 : UInt8) ∉ a) : (a ++ 10 :: r).idxOf? 10 = some a.length := by
  induction a with
  | nil => simp [List.idxOf?_cons]
  | cons b a ih =>
    simp only [List.mem_cons, not_or] at h
    rw [List.cons_append, List.idxOf?_cons, if_neg (by simpa using Ne.symm h.1), ih h.2]
    rfl

theorem idx_none {d : Bytes} (h : d.idxOf? 10 = none) : (10 : UInt8) ∉ d := by
  induction d with
  | nil => simp
  | cons b d ih =>
    rw [List.idxOf?_cons] at h
    by_cases hb : b = 10
    · rw [if_pos (by simp [hb])] at h; cases h
    · rw [if_neg (by simpa using hb)] at h
      have hd : d.idxOf? 10 = none := by
        cases hd : d.idxOf? 10 with
        | none => rfl
        | some j => rw [hd] at h; cases h
      simp [ih hd, Ne.symm hb]

theorem lines_cons (acc a r : Bytes) (h : (10 : UInt8) ∉ a) :
    linesFrom acc (a ++ 10 :: r) = dropCR (acc ++ a) :: linesFrom [] r := by
  induction a generalizing acc with
  | nil => simp [linesFrom, dropCR_eq]
  | cons b a ih =>
    simp only [List.mem_cons, not_or] at h
    simp only [List.cons_append, linesFrom]
    rw [if_neg (Ne.symm h.1), ih _ h.2]
    simp

theorem lines_last (acc a : Bytes) (h : (10 : UInt8) ∉ a) :
    linesFrom acc a = if acc ++ a = [] then [] else [dropCR (acc ++ a)] := by
  induction a generalizing acc with
  | nil => simp [linesFrom, dropCR_eq]
  | cons b a ih =>
    simp only [List.mem_cons, not_or] at h
    simp only [linesFrom]
    rw [if_neg (Ne.symm h.1), ih _ h.2]
    simp

theorem short_cons (l n : Nat) (a r : Bytes) (h : (10 : UInt8) ∉ a) :
    Short l n (a ++ 10 :: r) ↔ n + a.length < l ∧ Short l 0 r := by
  induction a generalizing n with
  | nil => simp [Short]
  | cons b a ih =>
    simp only [List.mem_cons, not_or] at h
    simp only [List.cons_append, Short]
    rw [if_neg (Ne.symm h.1), ih _ h.2, List.length_cons]
    constructor <;> intro ⟨x, y⟩ <;> exact ⟨by omega, y⟩

theorem short_last (l n : Nat) (a : Bytes) (h : (10 : UInt8) ∉ a) : Short l n a ↔ n + a.length < l := by
  induction a generalizing n with
  | nil => simp [Short]
  | cons b a ih =>
    simp only [List.mem_cons, not_or] at h
    simp only [Short]
    rw [if_neg (Ne.symm h.1), ih _ h.2, List.length_cons]
    constructor <;> intro x <;> omega

theorem scanLines_cons (a r : Bytes) (b : Bool) (h : (10 : UInt8) ∉ a) :
    scanLines (a ++ 10 :: r) b = .ok (a.length + 1) (some (dropCR a)) := by
  unfold scanLines
  rw [if_neg (by simp), idx_of h]
  simp

theorem scanLines_last (a : Bytes) (h : (10 : UInt8) ∉ a) :
    scanLines a true = (if a = [] then .ok 0 none else .ok a.length (some (dropCR a))) ∧ scanLines a false = .ok 0 none := by
  have hn : a.idxOf? 10 = none := by
    cases hx : a.idxOf? 10 with
    | none => rfl
    | some i =>
      obtain ⟨a', r, h1, _, _⟩ := idx_some hx
      exact absurd (by rw [h1]; simp) h
  unfold scanLines
  rw [hn]
  constructor
  · by_cases h0 : a = []
    · simp [h0]
    · simp [h0]
  · simp

theorem split10 (d : Bytes) : (∃ a r, d = a ++ 10 :: r ∧ (10 : UInt8) ∉ a) ∨ (10 : UInt8) ∉ d := by
  cases h : d.idxOf? 10 with
  | some i =>
    obtain ⟨a, r, h1, _, h3⟩ := idx_some h
    exact Or.inl ⟨a, r, h1, h3⟩
  | none => exact Or.inr (idx_none h)

theorem good_lines : Good scanLines := by
  refine ⟨?_, ?_, ?_, ?_⟩
  · intro d n t hd h
    rcases split10 d with ⟨a, r, rfl, ha⟩ | ha
    · rw [scanLines_cons a r _ ha] at h
      cases h
      refine Or.inr ⟨_, rfl, by omega, by simp, fun x b => ?_⟩
      rw [List.append_assoc, List.cons_append]
      exact scanLines_cons a (r ++ x) b ha
    · rw [(scanLines_last d ha).2] at h
      cases h
      exact Or.inl ⟨rfl, rfl⟩
  · intro d b _
    rcases split10 d with ⟨a, r, rfl, ha⟩ | ha
    · exact ⟨_, _, scanLines_cons a r b ha⟩
    · cases b with
      | false => exact ⟨_, _, (scanLines_last d ha).2⟩
      | true =>
        rw [(scanLines_last d ha).1]
        split
        · exact ⟨_, _, rfl⟩
        · exact ⟨_, _, rfl⟩
  · intro d n t h
    rcases split10 d with ⟨a, r, rfl, ha⟩ | ha
    · rw [scanLines_cons a r _ ha] at h
      cases h
      simp
    · rw [(scanLines_last d ha).1] at h
      split at h
      · cases h
      · rename_i hne
        cases h
        exact ⟨List.length_pos_iff.2 hne, Nat.le_refl _⟩
  · intro d n h
    rcases split10 d with ⟨a, r, rfl, ha⟩ | ha
    · rw [scanLines_cons a r _ ha] at h
      cases h
    · rw [(scanLines_last d ha).1] at h
      split at h
      · cases h; omega
      · cases h

theorem tokens_lines : ∀ (m : Nat) (R : Bytes), R.length < m → tokens scanLines m R = lines R := by
  intro m
  induction m with
  | zero => intro R h; omega
  | succ m ih =>
    intro R hm
    unfold lines
    rcases split10 R with ⟨a, r, rfl, ha⟩ | ha
    · simp only [tokens]
      rw [scanLines_cons a r _ ha, lines_cons [] a r ha]
      simp only [List.nil_append]
      rw [show (a ++ 10 :: r).drop (a.length + 1) = r by simp]
      rw [ih r (by simp at hm; omega)]
      rfl
    · simp only [tokens]
      rw [(scanLines_last R ha).1, lines_last [] R ha]
      by_cases h0 : R = []
      · simp [h0]
      · simp only [h0, if_false, List.nil_append]
        have : tokens scanLines m (R.drop R.length) = [] := by
          cases m with
          | zero => rfl
          | succ m => simp [tokens, scanLines]
        rw [this]

theorem fits_lines (l : Nat) : ∀ (m : Nat) (R : Bytes), Short l 0 R → Fits scanLines l m R := by
  intro m
  induction m with
  | zero => intro R _; trivial
  | succ m ih =>
    intro R hs
    rcases split10 R with ⟨a, r, rfl, ha⟩ | ha
    · rw [short_cons l 0 a r ha] at hs
      refine ⟨?_, fun n t h => ?_⟩
      · by_cases hl : (a ++ 10 :: r).length < l
        · exact Or.inl hl
        · right
          have : (a ++ 10 :: r).take l = a ++ 10 :: r.take (l - a.length - 1) := by
            rw [List.take_append, List.take_of_length_le (by omega)]
            congr 1
            rw [show l - a.length = (l - a.length - 1) + 1 by omega]
            rfl
          rw [this]
          exact ⟨_, _, scanLines_cons a _ _ ha⟩
      · rw [scanLines_cons a r _ ha] at h
        cases h
        rw [show (a ++ 10 :: r).drop (a.length + 1) = r by simp]
        exact ih r hs.2
    · rw [short_last l 0 R ha] at hs
      refine ⟨Or.inl (by omega), fun n t h => ?_⟩
      rw [(scanLines_last R ha).1] at h
      split at h
      · cases h
      · cases h
        rw [List.drop_length]
        exact ih [] (by simp [Short]; omega)

theorem rem_new (cap max : Nat) (src : Script) (h : Lively src) :
    Rem (new cap max src) (stream src).1 (stream src).2 := ⟨rfl, by simp [new], Or.inl ⟨rfl, by simp [new], rfl, h⟩⟩

/-- **C145.** However the input is cut into reads: the usual loop gets exactly the lines of the input, in order, once each,
and then stops; `Err` reports the reader's error, and nothing if that is the end of file. `cap`, `max`: what was given to
`Buffer` (0 and 65536 without it); no line may have as many bytes as the larger of the two.
Missing: lines of just that size (`exact_fit_depends_on_reader`), and false after false in all cases
(`token_after_too_long`). -/
theorem lines_exact_partial (cap max : Nat) (src : Script) (hl : Lively src)
    (hs : Short (if cap ≤ max then max else cap) 0 (stream src).1) :
    ∃ s', (∀ f, (stream src).1.length < f →
        scanAll scanLines f (new cap max src) = some ((lines (stream src).1).map some, s')) ∧
      errOf s' = (if (stream src).2 = .eof then none else some (.io (stream src).2)) ∧
      ∃ s'', scan scanLines s' = some (.no, s'') ∧ errOf s'' = errOf s' := by
  have hpos : 0 < lim (new cap max src) := by
    rcases split10 (stream src).1 with ⟨a, r, h, ha⟩ | ha
    · rw [h, short_cons _ _ _ _ ha] at hs
      exact Nat.lt_of_le_of_lt (Nat.zero_le _) hs.1
    · rw [short_last _ _ _ ha] at hs
      exact Nat.lt_of_le_of_lt (Nat.zero_le _) hs
  obtain ⟨s', h1, h2, h3, h4⟩ := scanAll_spec scanLines good_lines (stream src).2 ((stream src).1.length + 1)
    (new cap max src) (stream src).1 (by omega) (rem_new cap max src hl) hpos (fits_lines _ _ _ hs)
  rw [tokens_lines _ _ (by omega)] at h1
  have hE : ∀ t : Sc, t.err = some (.io (stream src).2) →
      errOf t = (if (stream src).2 = .eof then none else some (.io (stream src).2)) := by
    intro t ht
    unfold errOf
    rw [ht]
    by_cases he : (stream src).2 = .eof
    · simp [he]
    · rw [if_neg (by simpa using he), if_neg he]
  obtain ⟨s'', k1, k2, _, _⟩ := after_end scanLines rfl s' _ h2 h3 h4
  exact ⟨s', h1, hE s' h2, s'', k1, by rw [hE s' h2, hE s'' k2]⟩

/-! ## Bytes -/

theorem good_bytes : Good scanBytes := by
  refine ⟨?_, ?_, ?_, ?_⟩
  · intro d n t hd h
    cases d with
    | nil => exact absurd rfl hd
    | cons b d =>
      simp only [scanBytes] at h
      rw [if_neg (by simp)] at h
      cases h
      refine Or.inr ⟨_, rfl, by omega, by simp, fun x c => ?_⟩
      simp [scanBytes]
  · intro d b _
    unfold scanBytes
    split
    · exact ⟨_, _, rfl⟩
    · exact ⟨_, _, rfl⟩
  · intro d n t h
    unfold scanBytes at h
    split at h
    · cases h
    · rename_i hc
      cases h
      have : d.length ≠ 0 := fun h0 => hc ⟨rfl, h0⟩
      omega
  · intro d n h
    unfold scanBytes at h
    split at h
    · cases h; omega
    · cases h

theorem tokens_bytes : ∀ (m : Nat) (R : Bytes), R.length < m → tokens scanBytes m R = R.map (fun b => [b]) := by
  intro m
  induction m with
  | zero => intro R h; omega
  | succ m ih =>
    intro R hm
    cases R with
    | nil => simp [tokens, scanBytes]
    | cons b R =>
      simp only [tokens]
      have : scanBytes (b :: R) true = .ok 1 (some [b]) := by simp [scanBytes]
      rw [this]
      dsimp only
      rw [List.drop_one, List.tail_cons, ih R (by simp at hm; omega)]
      rfl

theorem fits_bytes (l : Nat) (hl : 0 < l) : ∀ (m : Nat) (R : Bytes), Fits scanBytes l m R := by
  intro m
  induction m with
  | zero => intro R; trivial
  | succ m ih =>
    intro R
    refine ⟨?_, fun n t _ => ih _⟩
    cases R with
    | nil => exact Or.inl (by simpa using hl)
    | cons b R =>
      right
      exact ⟨1, _, by unfold scanBytes; rw [if_neg (by simp)]⟩

/-- **C145.** The same with `Split(ScanBytes)`: every byte once, in order, with any buffer. -/
theorem bytes_exact (cap max : Nat) (src : Script) (hl : Lively src) (hpos : 0 < cap ∨ 0 < max) :
    ∃ s', (∀ f, (stream src).1.length < f →
        scanAll scanBytes f (new cap max src) = some ((stream src).1.map (fun b => some [b]), s')) ∧
      errOf s' = (if (stream src).2 = .eof then none else some (.io (stream src).2)) := by
  have hpos : 0 < lim (new cap max src) := by
    show 0 < (if cap ≤ max then max else cap)
    by_cases h : cap ≤ max
    · rw [if_pos h]; omega
    · rw [if_neg h]; omega
  obtain ⟨s', h1, h2, h3, h4⟩ := scanAll_spec scanBytes good_bytes (stream src).2 ((stream src).1.length + 1)
    (new cap max src) (stream src).1 (by omega) (rem_new cap max src hl) hpos (fits_bytes _ hpos _ _)
  rw [tokens_bytes _ _ (by omega)] at h1
  refine ⟨s', fun f hf => by rw [h1 f hf]; simp [Function.comp_def], ?_⟩
  unfold errOf
  rw [h2]
  by_cases he : (stream src).2 = .eof
  · simp [he]
  · rw [if_neg (by simpa using he), if_neg he]

/-! ## Lines that are too long -/

theorem tooLong_loop : ∀ (f : Nat) (s : Sc) (R : Bytes) (e : Err), Rem s R e → s.err = none → weight s.src + 2 ≤ f →
    lim s < R.length → (10 : UInt8) ∉ R.take (lim s) →
    ∃ s', scanLoop scanLines f s = some (.no, s') ∧ s'.err = some .tooLong ∧ s'.data = R.take (lim s) ∧ s'.done = false := by
  intro f
  induction f with
  | zero => intro s R e _ _ h; omega
  | succ f ih =>
    intro s R e hr he hf hlen hno
    obtain ⟨hd, hfit, hr'⟩ := hr
    have hr'' : R = s.data ++ (stream s.src).1 ∧ e = (stream s.src).2 ∧ Lively s.src := by
      rcases hr' with h | h
      · exact h.2
      · rw [he] at h; cases h.1
    obtain ⟨hR, hE, hL⟩ := hr''
    have hcl : s.cap ≤ lim s := by unfold lim; split <;> omega
    have hdata : (10 : UInt8) ∉ s.data := by
      intro hm
      apply hno
      rw [hR, List.take_append, List.take_of_length_le (by omega)]
      simp [hm]
    unfold scanLoop
    have hat : attempt scanLines s = .more s := by
      unfold attempt
      by_cases hnil : s.data = []
      · rw [if_neg (by simp [hnil, he])]
      · rw [if_pos (Or.inl hnil), show (s.err != none) = false by rw [he]; rfl, (scanLines_last s.data hdata).2]
        dsimp only
        rw [if_neg (by omega)]
        rfl
    rw [hat]
    dsimp only
    rw [if_neg (by simp [he])]
    obtain ⟨s1, s2, s3, s4, s5, s6, s7⟩ := shift_spec s R e ⟨hd, hfit, Or.inl ⟨he, hR, hE, hL⟩⟩
    by_cases hfull : (shift s).start + (shift s).data.length = (shift s).cap ∧ (shift s).cap ≥ (shift s).max
    · have : resize (shift s) = none := by
        unfold resize; rw [if_pos hfull.1, if_pos hfull.2]
      rw [this]
      refine ⟨_, rfl, ?_, ?_, ?_⟩
      · unfold setErr; rw [if_pos (Or.inl (by rw [s4]; exact he))]
      · have hx : s.data.length = s.cap := s7 (by have := hfull.1; rw [s6, s2] at this; exact this)
        have hm := hfull.2
        rw [s2, s3] at hm
        have : lim s = s.cap := by unfold lim; split <;> omega
        unfold setErr
        rw [if_pos (Or.inl (by rw [s4]; exact he))]
        dsimp only
        rw [s6, this, hR, List.take_append_of_le_length (by omega), List.take_of_length_le (by omega)]
      · unfold setErr
        rw [if_pos (Or.inl (by rw [s4]; exact he))]
        exact s1.1
    · obtain ⟨s', r1, r2, r3, r4, r5, r6, r7⟩ := resize_spec _ R e s1 (fun hx => by
        by_cases hm : (shift s).cap ≥ (shift s).max
        · exact absurd ⟨hx, hm⟩ hfull
        · omega)
      rw [r1]
      dsimp only
      have he' : s'.err = none := by rw [r3, s4]; exact he
      have hL' : Lively s'.src := by rw [r4, s5]; exact hL
      obtain ⟨l1, l2, l3, l4⟩ := readLoop_spec 101 s' R e r2 he' r7 (by have := lively_ahead _ hL'; omega)
      have hlim' : lim (readLoop 101 s') = lim s := by
        have : lim (readLoop 101 s') = lim s' := by unfold lim; rw [l2, l3]
        rw [this, r6]; unfold lim; rw [s2, s3]
      have hwt : weight s'.src = weight s.src := by rw [r4, s5]
      have herr : (readLoop 101 s').err = none := by
        rcases l4 with l4 | l4
        · exfalso
          obtain ⟨_, k2, k3⟩ := l1
          rcases k3 with k3 | k3
          · exact l4 k3.1
          · have hc : (readLoop 101 s').cap ≤ lim (readLoop 101 s') := by unfold lim; split <;> omega
            have := congrArg List.length k3.2
            omega
        · exact l4.1
      have hw : weight (readLoop 101 s').src < weight s'.src := by
        rcases l4 with l4 | l4
        · exact absurd herr l4
        · exact l4.2.1
      obtain ⟨s'', x1, x2, x3, x4⟩ := ih (readLoop 101 s') R e l1 herr (by omega) (by rw [hlim']; exact hlen)
        (by rw [hlim']; exact hno)
      exact ⟨s'', x1, x2, by rw [x3, hlim'], x4⟩

/-- **C145.** If the first line does not end within the buffer's largest size and does not fit, the scan stops with
`ErrTooLong`, however the input is cut. -/
theorem too_long (cap max : Nat) (src : Script) (hl : Lively src)
    (hlen : (if cap ≤ max then max else cap) < (stream src).1.length)
    (hno : (10 : UInt8) ∉ (stream src).1.take (if cap ≤ max then max else cap)) :
    ∃ s', scan scanLines (new cap max src) = some (.no, s') ∧ errOf s' = some .tooLong := by
  obtain ⟨s', h1, h2, _, _⟩ := tooLong_loop (weight src + 3) (new cap max src) _ _ (rem_new cap max src hl) rfl
    (by simp [new]) hlen hno
  refine ⟨s', by rw [scan_eq _ _ rfl]; exact h1, ?_⟩
  unfold errOf
  rw [h2]
  rfl

/-- (violation of "after Scan returns false it goes on returning false") After `ErrTooLong` the next call delivers what is in
the buffer as if it were a line: for every such input. -/
theorem token_after_too_long (cap max : Nat) (src : Script) (hl : Lively src)
    (hpos : 0 < (if cap ≤ max then max else cap))
    (hlen : (if cap ≤ max then max else cap) < (stream src).1.length)
    (hno : (10 : UInt8) ∉ (stream src).1.take (if cap ≤ max then max else cap)) :
    ∃ s1 s2, scan scanLines (new cap max src) = some (.no, s1) ∧ errOf s1 = some .tooLong ∧
      scan scanLines s1 = some (.yes (some (withoutCR ((stream src).1.take (if cap ≤ max then max else cap)))), s2) ∧
      errOf s2 = some .tooLong := by
  obtain ⟨s', h1, h2, h3, h4⟩ := tooLong_loop (weight src + 3) (new cap max src) _ _ (rem_new cap max src hl) rfl
    (by simp [new]) hlen hno
  have hlim : lim (new cap max src) = (if cap ≤ max then max else cap) := rfl
  rw [hlim] at h3
  have hl3 : s'.data.length = (if cap ≤ max then max else cap) := by
    rw [h3, List.length_take]; omega
  have hne : s'.data ≠ [] := by
    intro h0; rw [h0] at hl3; simp at hl3; omega
  have hat : attempt scanLines s' = .ret (.yes (some (dropCR s'.data)))
      { s' with start := s'.start + s'.data.length, data := s'.data.drop s'.data.length, empties := 0 } := by
    unfold attempt
    rw [if_pos (Or.inl hne), show (s'.err != none) = true by rw [h2]; rfl,
      (scanLines_last s'.data (by rw [h3]; exact hno)).1, if_neg hne]
    dsimp only
    rw [if_neg (by omega), if_pos (Or.inr (by omega))]
  refine ⟨s', { s' with start := s'.start + s'.data.length, data := s'.data.drop s'.data.length, empties := 0 },
    by rw [scan_eq _ _ rfl]; exact h1, ?_, ?_, ?_⟩
  · unfold errOf; rw [h2]; rfl
  · rw [scan_eq _ _ h4]
    unfold scanLoop
    rw [hat, h3, dropCR_eq]
  · unfold errOf; dsimp only; rw [h2]; rfl

/-- Such an input. -/
theorem too_long_example :
    let src : Script := [([97, 98], none), ([99, 100, 101, 10], none)]
    Lively src ∧ 4 < (stream src).1.length ∧ (10 : UInt8) ∉ (stream src).1.take 4 := by
  refine ⟨⟨by decide, by decide, trivial⟩, by decide, by decide⟩

/-- A last line of exactly the largest size, without line end: delivered or refused, depending on whether the reader reports
the end of file together with the last bytes or after them. -/
theorem exact_fit_depends_on_reader :
    (scan scanLines (new 0 4 [([97, 98, 99, 100], some .eof)])).map (·.1) = some (.yes (some [97, 98, 99, 100])) ∧
    (scan scanLines (new 0 4 [([97, 98, 99, 100], none)])).map (·.1) = some .no := by
  decide +kernel

/-- A reader that delivers nothing 101 times in a row: what is there is delivered, then `io.ErrNoProgress`. -/
theorem no_progress_reported :
    (scanAll scanLines 5 (new 0 16 (([97], none) :: List.replicate 101 ([], none) ++ [([98], none)]))).map
      (fun q => (q.1, errOf q.2)) = some ([some [97]], some (.io .noProgress)) := by
  decide +kernel

/-- Two cuttings of the same text. -/
theorem example_lines :
    (scanAll scanLines 9 (new 0 16 [([97, 13, 10, 10, 98], none)])).map (·.1) =
      some [some [97], some [], some [98]] ∧
    (scanAll scanLines 9 (new 2 16 [([97], none), ([13], none), ([], none), ([10, 10], none), ([98], some .eof)])).map (·.1) =
      some [some [97], some [], some [98]] ∧
    lines [97, 13, 10, 10, 98] = [[97], [], [98]] ∧
    Short 16 0 [97, 13, 10, 10, 98] := by
  refine ⟨by decide +kernel, by decide +kernel, by decide, by simp [Short]⟩

/-! ## Other split functions -/

/-- A final token (`ErrFinalToken`) is delivered, nothing is consumed, and the scanner is at its end for good. -/
theorem final_token (sp : Split) (s : Sc) (t : Option Bytes) (hd : s.done = false) (hc : s.data ≠ [] ∨ s.err ≠ none)
    (h : sp s.data (s.err != none) = .final t) :
    ∃ s', scan sp s = some (.yes t, s') ∧ s'.data = s.data ∧ s'.src = s.src ∧ errOf s' = errOf s ∧
      ∀ sp', scan sp' s' = some (.no, s') := by
  refine ⟨{ s with done := true }, ?_, rfl, rfl, rfl, fun sp' => by simp [scan]⟩
  rw [scan_eq sp s hd]
  have : attempt sp s = .ret (.yes t) { s with done := true } := by
    unfold attempt; rw [if_pos hc, h]
  simp [scanLoop, this]

/-- `k` calls of `Scan`: what they answer, up to a panic. -/
def calls (sp : Split) : Nat → Sc → List (Option Res)
  | 0, _ => []
  | k + 1, s =>
    match scan sp s with
    | none => [none]
    | some (.panic, _) => [some .panic]
    | some (r, s) => some r :: calls sp k s

theorem calls_empty (sp : Split) (t : Bytes) : ∀ (k : Nat) (s : Sc), s.done = false → s.err ≠ none →
    sp s.data true = .ok 0 (some t) →
    s.empties + k ≤ 100 → calls sp (k + 1) s = List.replicate k (some (.yes (some t))) ++
      [if s.empties + k = 100 then some .panic else some (.yes (some t))] := by
  have one : ∀ s : Sc, s.done = false → s.err ≠ none → sp s.data true = .ok 0 (some t) →
      scan sp s = if s.empties + 1 > 100 then some (.panic, { s with empties := s.empties + 1 })
        else some (.yes (some t), { s with empties := s.empties + 1 }) := by
    intro s hd he h
    have hb : (s.err != none) = true := by simpa using he
    rw [scan_eq sp s hd]
    have : attempt sp s = if s.empties + 1 > 100 then .ret .panic { s with empties := s.empties + 1 }
        else .ret (.yes (some t)) { s with empties := s.empties + 1 } := by
      unfold attempt
      rw [if_pos (.inr he), hb, h]
      dsimp only
      rw [if_neg (by omega), if_neg (by simp [he])]
      simp
    simp only [scanLoop, this]
    by_cases hx : s.empties + 1 > 100
    · rw [if_pos hx, if_pos hx]
    · rw [if_neg hx, if_neg hx]
  intro k
  induction k with
  | zero =>
    intro s hd he h hk
    rw [calls, one s hd he h]
    by_cases hx : s.empties = 100
    · rw [if_pos (by omega)]; simp [hx]
    · rw [if_neg (by omega)]; simp [calls, hx]
  | succ k ih =>
    intro s hd he h hk
    rw [calls, one s hd he h, if_neg (by omega)]
    dsimp only
    rw [ih { s with empties := s.empties + 1 } hd he h (by dsimp only; omega), List.replicate_succ, List.cons_append]
    dsimp only
    rw [Nat.add_right_comm s.empties 1 k, Nat.add_assoc]

/-- A split function that makes up tokens at the end of the input without consuming anything is stopped: the first hundred tokens
are delivered, then `Scan` panics, as documented (libcs/bufio/scan.go:132-134). -/
theorem empty_tokens (sp : Split) (s : Sc) (t : Bytes) (hd : s.done = false) (he : s.err ≠ none) (h0 : s.empties = 0)
    (h : sp s.data true = .ok 0 (some t)) :
    calls sp 101 s = List.replicate 100 (some (.yes (some t))) ++ [some .panic] := by
  rw [calls_empty sp t 100 s hd he h (by omega), if_pos (by omega)]

example : calls (fun _ _ => .ok 0 (some [])) 101 { new 16 16 [] with err := some (.io .eof) } =
    List.replicate 100 (some (.yes (some []))) ++ [some .panic] := empty_tokens _ _ [] rfl (by simp [new]) rfl rfl

/-- A new scanner has seen no empty tokens: the first hundred after the end of an empty input are delivered. -/
example : (calls (fun _ e => if e then .ok 0 (some []) else .ok 0 none) 101 (new 16 16 [])).length = 101 ∧
    (calls (fun _ e => if e then .ok 0 (some []) else .ok 0 none) 101 (new 16 16 []))[99]? = some (some (.yes (some []))) := by
  decide +kernel

end Verif.Bufio.Scanner
