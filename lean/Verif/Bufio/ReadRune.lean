import Verif.Bufio.Runes
import Verif.Bufio.Props
set_option linter.unusedSimpArgs false
set_option linter.unusedVariables false
/-!
# C149: `ReadRune` and `UnreadRune` (libcs/bufio/bufio.go:283-316)

The reader of `Verif.Bufio.Model` with what only the rune functions use: the size of the last rune and the bytes of the
buffer before the window. `utf8.DecodeRune` and `utf8.FullRune` (standard library, not in /repo) are those of
`Verif.Bufio.Runes`, shown there to agree with the definition of UTF-8.
-/
namespace Verif.Bufio.ReadRune
open Verif Verif.Bufio
open Verif.Bufio.Scanner (stream emptiesAhead)
open Verif.Bufio.Runes (decode fullRune enc Scalar Ranged)

/-- libcs/bufio/bufio.go:32-39 `Reader` with `lastRuneSize` (`none`: -1) and `before`: `buf[0:r]`, exact while `size` is
set. -/
structure Rn where
  rd : Rd
  size : Option Nat
  before : Bytes
deriving DecidableEq, Repr

/-- libcs/bufio/bufio.go:41-64, 75-82: a new reader. -/
def Rn.new (cap : Nat) (src : Script) : Rn := ⟨Rd.new cap src, none, []⟩

/-- libcs/bufio/bufio.go:287-289: the loop of `ReadRune`. `none`: panic, or out of fuel (excluded by `runeLoop_spec`). -/
def runeLoop : Nat → Rd → Option Rd
  | 0, _ => none
  | f + 1, s =>
    if s.data.length < 4 ∧ fullRune s.data = false ∧ s.err = none ∧ s.data.length < s.cap then
      match fill s with
      | none => none
      | some s' => runeLoop f s'
    else some s

/-- The last `k` of some bytes. -/
def lastBytes (k : Nat) (bs : Bytes) : Bytes := bs.drop (bs.length - k)

/-- libcs/bufio/bufio.go:286-302 `ReadRune`: rune, size, error. -/
def readRune (s : Rn) : Option ((Nat × Nat × Option Err) × Rn) :=
  match runeLoop 6 s.rd with
  | none => none
  | some d =>
    match d.data with
    | [] => some ((0, 0, d.err), ⟨{ d with err := none }, none, lastBytes d.r s.before⟩)
    | c :: t =>
      let q := if c.toNat < 0x80 then (c.toNat, 1) else decode (c :: t)
      some ((q.1, q.2, none),
        ⟨{ d with r := d.r + q.2, data := (c :: t).drop q.2, last := ((c :: t).take q.2).getLast? }, some q.2,
          lastBytes d.r s.before ++ (c :: t).take q.2⟩)

/-- libcs/bufio/bufio.go:308-316 `UnreadRune`; true: no error. -/
def unreadRune (s : Rn) : Bool × Rn :=
  match s.size with
  | none => (false, s)
  | some k =>
    if s.rd.r < k then (false, s)
    else (true, ⟨{ s.rd with r := s.rd.r - k, data := lastBytes k s.before ++ s.rd.data, last := none }, none,
      s.before.take (s.before.length - k)⟩)

/-- `lastRuneSize` after the other calls: libcs/bufio/bufio.go:136 (`Peek`), 164-193 (`Discard` leaves it), 198-243 (`Read`:
only if there were bytes), 248 (`ReadByte`), 279 (`UnreadByte`, if it succeeds), 363-366 (`ReadSlice`: only if there were
bytes). -/
def sizeAfter (k : Option Nat) : Op → Out → Option Nat
  | .peek _, _ => none
  | .read _, .bytes bs _ => if bs.length > 0 then none else k
  | .readByte, _ => none
  | .unreadByte, .unread none => none
  | .readSlice _, .bytes bs _ => if bs.length > 0 then none else k
  | _, _ => k

/-- How many bytes a call passed over. -/
def passed : Out → Nat
  | .bytes bs _ => bs.length
  | .count k _ => k
  | .byte (.ok _) => 1
  | _ => 0

/-- Another call on the reader. The buffer before the window afterwards: the last of what stood there and of the bytes
passed over. -/
def call (op : Op) (s : Rn) : Option (Out × Rn) :=
  (step op s.rd).map fun q => (q.1, ⟨q.2, sizeAfter s.size op q.1,
    lastBytes q.2.r (match op with
      | .unreadByte => s.before.dropLast
      | .peek _ => s.before
      | .buffered => s.before
      | _ => s.before ++ (s.rd.data ++ bytesOf s.rd.src).take (passed q.1))⟩)

/-- The loop `for { r, _, err := b.ReadRune(); if err != nil { break }; … }`: the runes with their sizes, and the error. -/
def readAll : Nat → Rn → Option (List (Nat × Nat) × Option Err)
  | 0, _ => none
  | f + 1, s =>
    match readRune s with
    | some ((r, k, none), s') => (readAll f s').map fun q => ((r, k) :: q.1, q.2)
    | some ((_, _, some e), _) => some ([], some e)
    | none => none

/-! ## Specification -/

/-- The underlying reader never delivers nothing 100 times in a row. -/
def Steady : Script → Prop
  | [] => True
  | x :: xs => ((x :: xs).takeWhile (fun y => y.1.isEmpty && y.2.isNone)).length < 100 ∧ Steady xs

/-- What `range` gives with the sizes: a scalar value with the length of its encoding, U+FFFD with 1 for a byte with which no
encoding begins. -/
inductive Sized : Bytes → List (Nat × Nat) → Prop
  | nil : Sized [] []
  | rune (r : Nat) (rest : Bytes) (rs : List (Nat × Nat)) : Scalar r → Sized rest rs →
      Sized (enc r ++ rest) ((r, (enc r).length) :: rs)
  | bad (b : UInt8) (rest : Bytes) (rs : List (Nat × Nat)) : (∀ r x, Scalar r → b :: rest ≠ enc r ++ x) → Sized rest rs →
      Sized (b :: rest) ((0xFFFD, 1) :: rs)

theorem sized_ranged (t : Bytes) (rs : List (Nat × Nat)) (h : Sized t rs) : Ranged t (rs.map (·.1)) := by
  induction h with
  | nil => exact .nil
  | rune r rest rs hr _ ih => exact .rune r rest _ hr ih
  | bad b rest rs hb _ ih => exact .bad b rest _ hb ih

/-! ## The loop -/

/-- What a reader still has to deliver, and the error after it. -/
def Ahead (s : Rd) (R : Bytes) (e : Err) : Prop :=
  4 ≤ s.cap ∧
  ((s.err = none ∧ R = s.data ++ (stream s.src).1 ∧ e = (stream s.src).2 ∧ Steady s.src) ∨
   (s.err = some e ∧ R = s.data))

theorem steady_rest (src : Script) (m : Nat) (hm : 0 < m) (h : Steady src) : Steady (srcRead src m).2.2 := by
  cases src with
  | nil => trivial
  | cons x r =>
    obtain ⟨bs, e⟩ := x
    by_cases hl : bs.length ≤ m
    · have hs : srcRead ((bs, e) :: r) m = (bs, e, r) := by simp [srcRead, hl]
      rw [hs]; exact h.2
    · have hs : srcRead ((bs, e) :: r) m = (bs.take m, none, (bs.drop m, e) :: r) := by simp [srcRead, hl]
      rw [hs]
      refine ⟨?_, h.2⟩
      have hne : ¬ (bs.drop m = []) := by
        intro h0; have := congrArg List.length h0; simp at this; omega
      have hf : ((bs.drop m, e).1.isEmpty && (bs.drop m, e).2.isNone) = false := by simp [hne]
      rw [List.takeWhile_cons, hf]
      simp

theorem fillLoop_ahead : ∀ (k : Nat) (s : Rd) (R : Bytes) (e : Err), Ahead s R e → s.err = none →
    s.data.length < s.cap → emptiesAhead s.src < k →
    Ahead (fillLoop k s) R e ∧ (fillLoop k s).cap = s.cap ∧ (fillLoop k s).r = s.r ∧
      ((fillLoop k s).err ≠ none ∨ s.data.length < (fillLoop k s).data.length) := by
  intro k
  induction k with
  | zero => intro s R e _ _ _ h; omega
  | succ k ih =>
    intro s R e ha he hroom hk
    obtain ⟨hcap, ha⟩ := ha
    have hr : R = s.data ++ (stream s.src).1 ∧ e = (stream s.src).2 ∧ Steady s.src := by
      rcases ha with ha | ha
      · exact ha.2
      · rw [he] at ha; cases ha.1
    obtain ⟨hR, hE, hS⟩ := hr
    have hq := Scanner.srcRead_cases s.src (s.cap - s.data.length) (by omega)
    have hst := steady_rest s.src (s.cap - s.data.length) (by omega) hS
    unfold fillLoop
    generalize srcRead s.src (s.cap - s.data.length) = q at hq hst ⊢
    obtain ⟨bs, e', src'⟩ := q
    dsimp only at hq hst ⊢
    rcases hq with ⟨e'', rfl, h2, h3, h4⟩ | ⟨rfl, h2, h3, h4, h5, h6⟩
    · dsimp only
      refine ⟨⟨hcap, Or.inr ⟨by rw [hE, h3], by rw [hR, h2]⟩⟩, rfl, rfl, Or.inl (by simp)⟩
    · dsimp only
      rcases h6 with ⟨h6, r, hsrc, hrest⟩ | ⟨h6, _⟩
      · rw [if_neg (by omega)]
        have hnil : bs = [] := List.length_eq_zero_iff.1 h6
        subst hnil
        have hkk : emptiesAhead s.src = emptiesAhead r + 1 := by
          rw [hsrc]; simp [emptiesAhead, List.takeWhile_cons]
        obtain ⟨i1, i2, i3, i4⟩ := ih { s with data := s.data ++ [], src := src' } R e
          ⟨hcap, Or.inl ⟨he, by dsimp only; rw [hR, h2, List.append_assoc], by dsimp only; rw [hE, h3], hst⟩⟩ he
          (by simpa using hroom) (by dsimp only; rw [hrest]; omega)
        refine ⟨i1, i2, i3, ?_⟩
        simpa using i4
      · rw [if_pos h6]
        refine ⟨⟨hcap, Or.inl ⟨he, by dsimp only; rw [hR, h2, List.append_assoc], by dsimp only; rw [hE, h3], hst⟩⟩, rfl, rfl,
          Or.inr ?_⟩
        dsimp only
        rw [List.length_append]; omega

theorem steady_ahead (src : Script) (h : Steady src) : emptiesAhead src < 100 := by
  cases src with
  | nil => simp [emptiesAhead]
  | cons x xs => exact h.1

theorem fullRune_long (d : Bytes) (h : 4 ≤ d.length) : fullRune d = true := by
  match d with
  | [] => simp at h
  | [_] => simp at h
  | [_, _] => simp at h
  | [_, _, _] => simp at h
  | _ :: _ :: _ :: _ :: _ => rfl

/-- The loop ends with a whole rune, a decided error, or all there is before the reader's error. -/
theorem runeLoop_spec : ∀ (f : Nat) (s : Rd) (R : Bytes) (e : Err), Ahead s R e → 5 < f + s.data.length →
    (s.err ≠ none → 0 < f) → 0 < f →
    ∃ d, runeLoop f s = some d ∧ Ahead d R e ∧ d.cap = s.cap ∧
      ((d.r = s.r ∧ d.data = s.data) ∨ d.r = 0) ∧ (fullRune d.data = true ∨ d.err = some e) := by
  intro f
  induction f with
  | zero => intro s R e _ _ _ h; omega
  | succ f ih =>
    intro s R e ha hf _ _
    unfold runeLoop
    by_cases hc : s.data.length < 4 ∧ fullRune s.data = false ∧ s.err = none ∧ s.data.length < s.cap
    · rw [if_pos hc]
      obtain ⟨c1, c2, c3, c4⟩ := hc
      have hfill : fill s = some (fillLoop 100 { s with r := 0 }) := by
        simp only [fill]; rw [if_neg (by omega)]
      have hS : Steady s.src := by
        rcases ha.2 with h | h
        · exact h.2.2.2
        · rw [c3] at h; cases h.1
      obtain ⟨i1, i2, i3, i4⟩ := fillLoop_ahead 100 { s with r := 0 } R e ha c3 c4 (steady_ahead _ hS)
      rw [hfill]
      dsimp only
      generalize fillLoop 100 { s with r := 0 } = t at i1 i2 i3 i4 ⊢
      by_cases hte : t.err = none
      · have hlen : s.data.length < t.data.length := by
          rcases i4 with h | h
          · exact absurd hte h
          · exact h
        obtain ⟨d, j1, j2, j3, j4, j5⟩ := ih t R e i1 (by omega) (by intro h; exact absurd hte h) (by omega)
        refine ⟨d, j1, j2, j3.trans i2, Or.inr ?_, j5⟩
        rcases j4 with h | h
        · rw [h.1, i3]
        · exact h
      · have hstop : ∀ g, runeLoop (g + 1) t = some t := by
          intro g
          unfold runeLoop
          rw [if_neg (by intro h; exact hte h.2.2.1)]
        obtain ⟨g, rfl⟩ : ∃ g, f = g + 1 := ⟨f - 1, by omega⟩
        refine ⟨t, hstop g, i1, i2, Or.inr i3, Or.inr ?_⟩
        rcases i1.2 with h | h
        · exact absurd h.1 hte
        · exact h.1
    · rw [if_neg hc]
      refine ⟨s, rfl, ha, rfl, Or.inl ⟨rfl, rfl⟩, ?_⟩
      by_cases h4 : s.data.length < 4
      · by_cases hfr : fullRune s.data = true
        · exact Or.inl hfr
        · by_cases he : s.err = none
          · exfalso
            refine hc ⟨h4, by simpa using hfr, he, ?_⟩
            have := ha.1
            omega
          · right
            rcases ha.2 with h | h
            · exact absurd h.1 he
            · exact h.1
      · exact Or.inl (fullRune_long _ (by omega))

/-- What one decoding step says about the text. -/
theorem decode_cases (R : Bytes) (h : R ≠ []) :
    (Scalar (decode R).1 ∧ enc (decode R).1 = R.take (decode R).2) ∨
    (decode R = (0xFFFD, 1) ∧ ∀ r x, Scalar r → R ≠ enc r ++ x) := by
  have hw := Runes.decode_width R h
  cases R with
  | nil => exact absurd rfl h
  | cons b t =>
    by_cases h0 : b.toNat < 0x80
    · obtain ⟨k1, k2, k3⟩ := Runes.decode_ascii b t h0
      rw [k1]
      exact Or.inl ⟨k3, by rw [k2]; rfl⟩
    · by_cases h1 : (decode (b :: t)).2 > 1
      · exact Or.inl ⟨(Runes.decode_sound _ h1).1, (Runes.decode_sound _ h1).2.2⟩
      · right
        have hone : (decode (b :: t)).2 = 1 := by omega
        refine ⟨?_, fun r x hr => Runes.no_enc b t h0 hone r x hr⟩
        have : (decode (b :: t)).1 = 0xFFFD := by
          simp only [decode] at hone ⊢
          rw [if_neg h0] at hone ⊢
          split at hone
          · rename_i hl
            simp only [hl, reduceIte]
            cases t with
            | nil => rfl
            | cons b1 t =>
              simp only [Runes.decode2] at hone ⊢
              split at hone
              · simp at hone
              · rename_i hs; rw [if_neg hs]
          split at hone
          · rename_i hl' hl
            rw [if_neg hl', if_pos hl]
            match t with
            | [] => rfl
            | [_] => rfl
            | b1 :: b2 :: t =>
              simp only [Runes.decode3] at hone ⊢
              split at hone
              · simp at hone
              · rename_i hs; rw [if_neg hs]
          split at hone
          · rename_i hl'' hl' hl
            rw [if_neg hl'', if_neg hl', if_pos hl]
            match t with
            | [] => rfl
            | [_] => rfl
            | [_, _] => rfl
            | b1 :: b2 :: b3 :: t =>
              simp only [Runes.decode4] at hone ⊢
              split at hone
              · simp at hone
              · rename_i hs; rw [if_neg hs]
          · rename_i h3 h2 h1'
            rw [if_neg h3, if_neg h2, if_neg h1']
        rw [← this, ← hone]

theorem readRune_end (s : Rn) (e : Err) (h : Ahead s.rd [] e) :
    ∃ s', readRune s = some ((0, 0, some e), s') ∧ s'.size = none := by
  obtain ⟨d, h1, h2, h3, h4, h5⟩ := runeLoop_spec 6 s.rd [] e h (by omega) (fun _ => by omega) (by omega)
  have hd : d.data = [] := by
    rcases h2.2 with h | h
    · exact (List.append_eq_nil_iff.1 h.2.1.symm).1
    · exact h.2.symm
  have he : d.err = some e := by
    rcases h5 with h | h
    · rw [hd] at h; simp [fullRune] at h
    · exact h
  unfold readRune
  rw [h1]
  dsimp only
  rw [hd]
  dsimp only
  rw [he]
  exact ⟨_, rfl, rfl⟩

theorem readRune_next (s : Rn) (R : Bytes) (e : Err) (h : Ahead s.rd R e) (hR : R ≠ []) :
    ∃ s', readRune s = some (((decode R).1, (decode R).2, none), s') ∧ Ahead s'.rd (R.drop (decode R).2) e ∧
      s'.size = some (decode R).2 ∧ (decode R).2 ≤ s'.rd.r ∧
      lastBytes (decode R).2 s'.before = R.take (decode R).2 := by
  obtain ⟨d, h1, h2, h3, h4, h5⟩ := runeLoop_spec 6 s.rd R e h (by omega) (fun _ => by omega) (by omega)
  obtain ⟨x, hx⟩ : ∃ x, R = d.data ++ x := by
    rcases h2.2 with h | h
    · exact ⟨_, h.2.1⟩
    · exact ⟨[], by rw [h.2]; simp⟩
  have hdd : d.data ≠ [] ∧ decode R = decode d.data := by
    rcases h5 with h | h
    · refine ⟨by intro h0; rw [h0] at h; simp [fullRune] at h, ?_⟩
      rw [hx]; exact Runes.decode_full _ _ h
    · rcases h2.2 with k | k
      · rw [k.1] at h; cases h
      · rw [k.2] at hR ⊢; exact ⟨hR, rfl⟩
  obtain ⟨hne, hdec⟩ := hdd
  have hw := Runes.decode_width d.data hne
  have htake : R.take (decode d.data).2 = d.data.take (decode d.data).2 := by
    rw [hx, List.take_append_of_le_length hw.2.1]
  unfold readRune
  rw [h1, hdec]
  dsimp only
  rw [htake]
  cases hd : d.data with
  | nil => exact absurd hd hne
  | cons c t =>
    rw [hd] at hw htake
    have hq : (if c.toNat < 0x80 then (c.toNat, 1) else decode (c :: t)) = decode (c :: t) := by
      by_cases h0 : c.toNat < 0x80
      · rw [if_pos h0, (Runes.decode_ascii c t h0).1]
      · rw [if_neg h0]
    dsimp only
    rw [hq]
    refine ⟨_, rfl, ⟨h2.1, ?_⟩, rfl, by dsimp only; omega, ?_⟩
    · dsimp only
      rcases h2.2 with k | k
      · refine Or.inl ⟨k.1, ?_, k.2.2.1, k.2.2.2⟩
        rw [k.2.1, hd, List.drop_append_of_le_length hw.2.1]
      · exact Or.inr ⟨k.1, by rw [k.2, hd]⟩
    · dsimp only
      unfold lastBytes
      rw [List.length_append, List.length_take, List.drop_append]
      have e2 : min (decode (c :: t)).2 (c :: t).length = (decode (c :: t)).2 := by omega
      rw [e2]
      rw [List.drop_of_length_le (by omega), List.nil_append]
      have e3 : (List.drop (s.before.length - d.r) s.before).length + (decode (c :: t)).2 - (decode (c :: t)).2 -
        (List.drop (s.before.length - d.r) s.before).length = 0 := by omega
      rw [e3, List.drop_zero]

theorem readAll_spec (e : Err) : ∀ (m : Nat) (s : Rn) (R : Bytes), R.length < m → Ahead s.rd R e →
    ∃ rs, Sized R rs ∧ ∀ f, R.length < f → readAll f s = some (rs, some e) := by
  intro m
  induction m with
  | zero => intro s R h; omega
  | succ m ih =>
    intro s R hm ha
    by_cases hR : R = []
    · subst hR
      obtain ⟨s', h1, _⟩ := readRune_end s e ha
      refine ⟨[], .nil, fun f hf => ?_⟩
      obtain ⟨g, rfl⟩ : ∃ g, f = g + 1 := ⟨f - 1, by omega⟩
      unfold readAll
      rw [h1]
    · obtain ⟨s', h1, h2, _⟩ := readRune_next s R e ha hR
      have hw := Runes.decode_width R hR
      obtain ⟨rs, i1, i2⟩ := ih s' (R.drop (decode R).2) (by rw [List.length_drop]; omega) h2
      refine ⟨((decode R).1, (decode R).2) :: rs, ?_, fun f hf => ?_⟩
      · rcases decode_cases R hR with ⟨k1, k2⟩ | ⟨k1, k2⟩
        · have := Sized.rune (decode R).1 (R.drop (decode R).2) rs k1 i1
          rw [k2, List.take_append_drop, List.length_take] at this
          have hmin : min (decode R).2 R.length = (decode R).2 := by omega
          rwa [hmin] at this
        · rw [k1] at i1 ⊢
          cases R with
          | nil => exact absurd rfl hR
          | cons b t => exact .bad b t rs (fun r x hr => k2 r x hr) i1
      · obtain ⟨g, rfl⟩ : ∃ g, f = g + 1 := ⟨f - 1, by omega⟩
        unfold readAll
        rw [h1]
        dsimp only
        rw [i2 g (by rw [List.length_drop]; omega)]
        rfl

/-! ## The properties -/

/-- **C149.** Reading rune by rune until the error gives exactly what `range` gives over all the bytes that the underlying
reader delivers before its first error, with the sizes, and then that error — however the bytes are cut into reads (also
inside a rune), for every buffer that holds a rune (`NewReaderSize` makes none under 16 bytes). -/
theorem runes_exact (cap : Nat) (src : Script) (hc : 4 ≤ cap) (hs : Steady src) :
    ∃ rs, Sized (stream src).1 rs ∧ Ranged (stream src).1 (rs.map (·.1)) ∧
      ∀ f, (stream src).1.length < f → readAll f (Rn.new cap src) = some (rs, some (stream src).2) := by
  obtain ⟨rs, h1, h2⟩ := readAll_spec (stream src).2 ((stream src).1.length + 1) (Rn.new cap src) (stream src).1 (by omega)
    ⟨hc, Or.inl ⟨rfl, by simp [Rn.new, Rd.new], rfl, hs⟩⟩
  exact ⟨rs, h1, sized_ranged _ _ h1, h2⟩

/-- What the calls so far left to be read is `R`, and then comes `e`. (`Ahead` for the whole reader.) -/
def Left (s : Rn) (R : Bytes) (e : Err) : Prop := Ahead s.rd R e

/-- **C149.** `UnreadRune` directly after a `ReadRune` that gave a rune puts that rune back: the same bytes are left as before,
and the next `ReadRune` gives the same rune. -/
theorem unread_restores (s s1 : Rn) (R : Bytes) (e : Err) (r k : Nat) (h : Left s R e)
    (h1 : readRune s = some ((r, k, none), s1)) :
    ∃ s2, unreadRune s1 = (true, s2) ∧ Left s2 R e ∧ (unreadRune s2).1 = false ∧
      ∃ s3, readRune s2 = some ((r, k, none), s3) := by
  by_cases hR : R = []
  · subst hR
    obtain ⟨s', k1, _⟩ := readRune_end s e h
    rw [k1] at h1
    cases h1
  · obtain ⟨s', k1, k2, k3, k4, k5⟩ := readRune_next s R e h hR
    rw [k1] at h1
    cases h1
    have ha : Ahead ⟨s1.rd.cap, s1.rd.r - (decode R).2, lastBytes (decode R).2 s1.before ++ s1.rd.data, s1.rd.err, none,
        s1.rd.src⟩ R e := by
      refine ⟨k2.1, ?_⟩
      dsimp only
      rw [k5]
      rcases k2.2 with q | q
      · refine Or.inl ⟨q.1, ?_, q.2.2⟩
        rw [List.append_assoc, ← q.2.1, List.take_append_drop]
      · refine Or.inr ⟨q.1, ?_⟩
        rw [← q.2, List.take_append_drop]
    refine ⟨⟨⟨s1.rd.cap, s1.rd.r - (decode R).2, lastBytes (decode R).2 s1.before ++ s1.rd.data, s1.rd.err, none, s1.rd.src⟩,
      none, s1.before.take (s1.before.length - (decode R).2)⟩, by unfold unreadRune; rw [k3]; dsimp only; rw [if_neg (by omega)],
      ha, rfl, ?_⟩
    obtain ⟨s3, j1, _⟩ := readRune_next
      ⟨⟨s1.rd.cap, s1.rd.r - (decode R).2, lastBytes (decode R).2 s1.before ++ s1.rd.data, s1.rd.err, none, s1.rd.src⟩, none,
        s1.before.take (s1.before.length - (decode R).2)⟩ R e ha hR
    exact ⟨s3, j1⟩

/-! ## After an error, and `UnreadByte` -/

/-- What the underlying reader delivers after its first error. -/
def post : Script → Script
  | [] => []
  | (_, some _) :: r => r
  | (_, none) :: r => post r

/-- The reader when the loop of `readAll` has got the error. -/
def readerAfter : Nat → Rn → Option Rn
  | 0, _ => none
  | f + 1, s =>
    match readRune s with
    | some ((_, _, none), s') => readerAfter f s'
    | some ((_, _, some _), s') => some s'
    | none => none

/-- What comes after the next error. -/
def Later (s : Rd) (B : Script) : Prop := (s.err = none ∧ post s.src = B) ∨ (s.err ≠ none ∧ s.src = B)

theorem post_steady : ∀ (src : Script), Steady src → Steady (post src)
  | [], h => h
  | (_, some _) :: _, h => h.2
  | (_, none) :: r, h => post_steady r h.2

theorem srcRead_post (src : Script) (m : Nat) (bs : Bytes) (e : Option Err) (r : Script) (h : srcRead src m = (bs, e, r)) :
    post src = if e = none then post r else r := by
  cases src with
  | nil => simp only [srcRead, Prod.mk.injEq] at h; obtain ⟨_, rfl, rfl⟩ := h; simp [post]
  | cons x t =>
    obtain ⟨b, x⟩ := x
    by_cases hl : b.length ≤ m
    · rw [show srcRead ((b, x) :: t) m = (b, x, t) by simp [srcRead, hl]] at h
      simp only [Prod.mk.injEq] at h
      obtain ⟨_, rfl, rfl⟩ := h
      cases x <;> simp [post]
    · rw [show srcRead ((b, x) :: t) m = (b.take m, none, (b.drop m, x) :: t) by simp [srcRead, hl]] at h
      simp only [Prod.mk.injEq] at h
      obtain ⟨_, rfl, rfl⟩ := h
      cases x <;> simp [post]

theorem fillLoop_later : ∀ (k : Nat) (s : Rd) (B : Script), s.err = none → s.data.length < s.cap → Steady s.src →
    emptiesAhead s.src < k → Later s B → Later (fillLoop k s) B := by
  intro k
  induction k with
  | zero => intro s B _ _ _ h; omega
  | succ k ih =>
    intro s B he hroom hS hk hB
    have hpost : post s.src = B := by
      rcases hB with h | h
      · exact h.2
      · exact absurd he h.1
    have hq := Scanner.srcRead_cases s.src (s.cap - s.data.length) (by omega)
    have hst := steady_rest s.src (s.cap - s.data.length) (by omega) hS
    have hp := srcRead_post s.src (s.cap - s.data.length)
    unfold fillLoop
    generalize srcRead s.src (s.cap - s.data.length) = q at hq hst hp ⊢
    obtain ⟨bs, e', src'⟩ := q
    replace hp := hp _ _ _ rfl
    dsimp only at hq hst ⊢
    cases e' with
    | some e' => exact Or.inr ⟨by simp, by rw [← hpost, hp]; rfl⟩
    | none =>
      dsimp only
      by_cases hb : bs.length > 0
      · rw [if_pos hb]
        exact Or.inl ⟨he, by rw [← hpost, hp]; rfl⟩
      · rw [if_neg hb]
        have hnil : bs = [] := List.length_eq_zero_iff.1 (by omega)
        subst hnil
        refine ih _ B he (by simpa using hroom) hst ?_ (Or.inl ⟨he, by rw [← hpost, hp]; rfl⟩)
        rcases hq with ⟨e'', h1, _⟩ | ⟨_, h2, h3, h4, h5, h6⟩
        · cases h1
        · rcases h6 with ⟨h6, r, hsrc, hrest⟩ | ⟨h6, _⟩
          · dsimp only
            rw [hsrc] at hk
            rw [hrest]
            simp [emptiesAhead, List.takeWhile_cons] at hk ⊢
            omega
          · simp at h6

theorem runeLoop_later : ∀ (f : Nat) (s d : Rd) (R : Bytes) (e : Err) (B : Script), Ahead s R e → Later s B →
    runeLoop f s = some d → Later d B := by
  intro f
  induction f with
  | zero => intro s d R e B _ _ h; cases h
  | succ f ih =>
    intro s d R e B ha hB h
    unfold runeLoop at h
    by_cases hc : s.data.length < 4 ∧ fullRune s.data = false ∧ s.err = none ∧ s.data.length < s.cap
    · rw [if_pos hc] at h
      obtain ⟨c1, c2, c3, c4⟩ := hc
      have hfill : fill s = some (fillLoop 100 { s with r := 0 }) := by
        simp only [fill]; rw [if_neg (by omega)]
      have hS : Steady s.src := by
        rcases ha.2 with h | h
        · exact h.2.2.2
        · rw [c3] at h; cases h.1
      rw [hfill] at h
      exact ih _ d R e B (fillLoop_ahead 100 { s with r := 0 } R e ha c3 c4 (steady_ahead _ hS)).1
        (fillLoop_later 100 { s with r := 0 } B c3 c4 hS (steady_ahead _ hS) hB) h
    · rw [if_neg hc] at h
      cases h
      exact hB

theorem readRune_later (s s' : Rn) (R : Bytes) (e : Err) (B : Script) (r k : Nat) (oe : Option Err) (h : Ahead s.rd R e)
    (hB : Later s.rd B) (hr : readRune s = some ((r, k, oe), s')) :
    (oe = none → Later s'.rd B) ∧ (oe ≠ none → s'.rd.err = none ∧ s'.rd.data = [] ∧ s'.rd.src = B ∧ s'.rd.cap = s.rd.cap) := by
  obtain ⟨d, h1, h2, h3, h4, h5⟩ := runeLoop_spec 6 s.rd R e h (by omega) (fun _ => by omega) (by omega)
  have hl := runeLoop_later 6 s.rd d R e B h hB h1
  unfold readRune at hr
  rw [h1] at hr
  dsimp only at hr
  cases hd : d.data with
  | nil =>
    rw [hd] at hr
    simp only [Option.some.injEq, Prod.mk.injEq] at hr
    obtain ⟨⟨_, _, rfl⟩, rfl⟩ := hr
    refine ⟨fun h0 => ?_, fun h0 => ⟨rfl, rfl, ?_, h3⟩⟩
    · rw [hd] at h5
      rcases h5 with h5 | h5
      · simp [fullRune] at h5
      · rw [h5] at h0; cases h0
    · rcases hl with hl | hl
      · exact absurd hl.1 h0
      · exact hl.2
  | cons c t =>
    rw [hd] at hr
    simp only [Option.some.injEq, Prod.mk.injEq] at hr
    obtain ⟨⟨_, _, rfl⟩, rfl⟩ := hr
    exact ⟨fun _ => hl, fun h0 => absurd rfl h0⟩

theorem readerAfter_spec (e : Err) (B : Script) : ∀ (m : Nat) (s : Rn) (R : Bytes), R.length < m → Ahead s.rd R e →
    Later s.rd B → ∃ s', (∀ f, R.length < f → readerAfter f s = some s') ∧
      s'.rd.err = none ∧ s'.rd.data = [] ∧ s'.rd.src = B ∧ 4 ≤ s'.rd.cap := by
  intro m
  induction m with
  | zero => intro s R h; omega
  | succ m ih =>
    intro s R hm ha hB
    by_cases hR : R = []
    · subst hR
      obtain ⟨s', h1, _⟩ := readRune_end s e ha
      have hl := (readRune_later s s' [] e B _ _ _ ha hB h1).2 (by simp)
      refine ⟨s', fun f hf => ?_, hl.1, hl.2.1, hl.2.2.1, by rw [hl.2.2.2]; exact ha.1⟩
      obtain ⟨g, rfl⟩ : ∃ g, f = g + 1 := ⟨f - 1, by omega⟩
      unfold readerAfter
      rw [h1]
    · obtain ⟨s', h1, h2, _⟩ := readRune_next s R e ha hR
      have hw := Runes.decode_width R hR
      have hl := (readRune_later s s' R e B _ _ _ ha hB h1).1 rfl
      obtain ⟨s2, i1, i2⟩ := ih s' (R.drop (decode R).2) (by rw [List.length_drop]; omega) h2 hl
      refine ⟨s2, fun f hf => ?_, i2⟩
      obtain ⟨g, rfl⟩ : ∃ g, f = g + 1 := ⟨f - 1, by omega⟩
      unfold readerAfter
      rw [h1]
      exact i1 g (by rw [List.length_drop]; omega)

/-- **C149.** An error is reported once. If the underlying reader goes on after its error (a time limit, say), so does the loop
when it is entered again: exactly the runes of what the reader delivers between its first and its second error. -/
theorem runes_after_error (cap : Nat) (src : Script) (hc : 4 ≤ cap) (hs : Steady src) :
    ∃ s' rs, (∀ f, (stream src).1.length < f → readerAfter f (Rn.new cap src) = some s') ∧
      Sized (stream (post src)).1 rs ∧
      ∀ f, (stream (post src)).1.length < f → readAll f s' = some (rs, some (stream (post src)).2) := by
  obtain ⟨s', h1, h2, h3, h4, h5⟩ := readerAfter_spec (stream src).2 (post src) ((stream src).1.length + 1) (Rn.new cap src)
    (stream src).1 (by omega) ⟨hc, Or.inl ⟨rfl, by simp [Rn.new, Rd.new], rfl, hs⟩⟩ (Or.inl ⟨rfl, rfl⟩)
  obtain ⟨rs, k1, k2⟩ := readAll_spec (stream (post src)).2 ((stream (post src)).1.length + 1) s' (stream (post src)).1 (by omega)
    ⟨h5, Or.inl ⟨h2, by rw [h3, h4]; rfl, by rw [h4], by rw [h4]; exact post_steady src hs⟩⟩
  exact ⟨s', rs, h1, k1, k2⟩

/-- **C149.** `UnreadByte` directly after a `ReadRune` that gave a rune puts back exactly the last byte of that rune, whether
the rune is one byte or more. -/
theorem unread_byte_after_rune (s s1 : Rn) (R : Bytes) (e : Err) (r k : Nat) (h : Left s R e)
    (h1 : readRune s = some ((r, k, none), s1)) :
    ∃ o s2, call .unreadByte s1 = some (.unread none, s2) ∧ R = o ++ R.drop (k - 1) ∧ o.length + 1 = k ∧
      Left s2 (R.drop (k - 1)) e := by
  by_cases hR : R = []
  · subst hR
    obtain ⟨s', k1, _⟩ := readRune_end s e h
    rw [k1] at h1
    cases h1
  · obtain ⟨s', k1, k2, k3, k4, k5⟩ := readRune_next s R e h hR
    rw [k1] at h1
    simp only [Option.some.injEq, Prod.mk.injEq, and_true] at h1
    obtain ⟨⟨_, rfl⟩, rfl⟩ := h1
    have hw := Runes.decode_width R hR
    have hlast : s'.rd.last = (R.take (decode R).2).getLast? := by
      obtain ⟨d, h1, h2, h3, h4, h5⟩ := runeLoop_spec 6 s.rd R e h (by omega) (fun _ => by omega) (by omega)
      have hx : ∃ x, R = d.data ++ x := by
        rcases h2.2 with h | h
        · exact ⟨_, h.2.1⟩
        · exact ⟨[], by rw [h.2]; simp⟩
      obtain ⟨x, hx⟩ := hx
      unfold readRune at k1
      rw [h1] at k1
      dsimp only at k1
      cases hd : d.data with
      | nil => rw [hd] at k1; simp at k1; omega
      | cons c t =>
        rw [hd] at k1
        simp only [Option.some.injEq, Prod.mk.injEq] at k1
        obtain ⟨⟨_, q2, _⟩, rfl⟩ := k1
        dsimp only
        rw [q2]
        have hw2 : (decode R).2 ≤ (c :: t).length := by
          have hcw := Runes.decode_width (c :: t) (by simp)
          by_cases h0 : c.toNat < 0x80
          · rw [if_pos h0] at q2; rw [← q2]; simp
          · rw [if_neg h0] at q2; rw [← q2]; exact hcw.2.1
        rw [← List.take_append_of_le_length (l₂ := x) hw2, ← hd, ← hx]
    obtain ⟨n, hn⟩ : ∃ n, (decode R).2 = n + 1 := ⟨(decode R).2 - 1, by omega⟩
    rw [hn] at hlast k2 k4 hw ⊢
    have hlt : n < R.length := by omega
    have hgl : (R.take (n + 1)).getLast? = some R[n] := by
      rw [List.take_succ_eq_append_getElem hlt, List.getLast?_concat]
    rw [hgl] at hlast
    have hdrop : R.drop n = R[n] :: R.drop (n + 1) := by rw [List.drop_eq_getElem_cons hlt]
    refine ⟨R.take n, _, by
      simp only [call, step, unreadByte]
      rw [hlast]
      dsimp only
      rw [if_neg (by omega)]
      rfl, by simp, by rw [List.length_take]; omega, ?_⟩
    refine ⟨k2.1, ?_⟩
    simp only [Nat.add_sub_cancel]
    rw [hdrop]
    rcases k2.2 with q | q
    · exact Or.inl ⟨q.1, by rw [q.2.1]; rfl, q.2.2⟩
    · exact Or.inr ⟨q.1, by rw [q.2]⟩

/-- The calls made so far with their results, latest first. -/
inductive Ev where
  | rune (r k : Nat) (e : Option Err)
  | unrune (ok : Bool)
  | call (op : Op) (o : Out)
deriving DecidableEq, Repr

/-- A reader after some calls. -/
inductive Run (cap : Nat) (src : Script) : List Ev → Rn → Prop
  | new : Run cap src [] (Rn.new cap src)
  | rune (h : List Ev) (s s' : Rn) (r k : Nat) (e : Option Err) : Run cap src h s → readRune s = some ((r, k, e), s') →
      Run cap src (.rune r k e :: h) s'
  | unrune (h : List Ev) (s s' : Rn) (b : Bool) : Run cap src h s → unreadRune s = (b, s') →
      Run cap src (.unrune b :: h) s'
  | call (h : List Ev) (s s' : Rn) (op : Op) (o : Out) : Run cap src h s → call op s = some (o, s') →
      Run cap src (.call op o :: h) s'

/-- A call that gave nothing back and is not a `Peek` or `ReadByte`: failed, or only asked for `Buffered`. -/
def Idle : Op → Out → Prop
  | .buffered, _ => True
  | .read _, .bytes bs _ => bs = []
  | .readSlice _, .bytes bs _ => bs = []
  | .discard _, .count k _ => k = 0
  | .unreadByte, .unread (some _) => True
  | _, _ => False

/-- The last call that was not idle is a `ReadRune` that gave a rune. -/
def JustRead : List Ev → Prop
  | .rune _ _ none :: _ => True
  | .unrune false :: h => JustRead h
  | .call op o :: h => Idle op o ∧ JustRead h
  | _ => False

/-- No `Discard` that discarded something. -/
def NoDiscard (h : List Ev) : Prop := ∀ n k e, Ev.call (.discard n) (.count k e) ∈ h → k = 0

theorem size_spec (cap : Nat) (src : Script) (h : List Ev) (s : Rn) (hr : Run cap src h s) :
    NoDiscard h → s.size ≠ none → JustRead h := by
  induction hr with
  | new => intro _ h; exact absurd rfl h
  | rune h s s' r k e _ hrd _ =>
    intro _ hs
    cases e with
    | none => trivial
    | some e =>
      exfalso
      unfold readRune at hrd
      cases hl : runeLoop 6 s.rd with
      | none => rw [hl] at hrd; cases hrd
      | some d =>
        rw [hl] at hrd
        dsimp only at hrd
        cases hd : d.data with
        | nil =>
          rw [hd] at hrd
          have := (Prod.mk.inj (Option.some.inj hrd)).2
          rw [← this] at hs
          exact hs rfl
        | cons c t => rw [hd] at hrd; cases hrd
  | unrune h s s' b _ hu ih =>
    intro hn hs
    have hn' : NoDiscard h := fun n k e hm => hn n k e (List.mem_cons_of_mem _ hm)
    unfold unreadRune at hu
    cases hz : s.size with
    | none =>
      rw [hz] at hu
      cases hu
      exact absurd hz hs
    | some k =>
      rw [hz] at hu
      dsimp only at hu
      split at hu
      · cases hu
        exact ih hn' hs
      · cases hu
        exact absurd rfl hs
  | call h s s' op o _ hc ih =>
    intro hn hs
    have hn' : NoDiscard h := fun n k e hm => hn n k e (List.mem_cons_of_mem _ hm)
    unfold call at hc
    cases hst : step op s.rd with
    | none => rw [hst] at hc; cases hc
    | some q =>
      rw [hst, Option.map_some] at hc
      obtain ⟨rfl, rfl⟩ := Prod.mk.inj (Option.some.inj hc)
      dsimp only at hs
      have keep : sizeAfter s.size op q.1 = s.size → Idle op q.1 → JustRead (.call op q.1 :: h) := by
        intro he hi
        rw [he] at hs
        exact ⟨hi, ih hn' hs⟩
      obtain ⟨o, d⟩ := q
      dsimp only at hs keep hn ⊢
      cases op with
      | peek n => exact absurd rfl hs
      | readByte => exact absurd rfl hs
      | buffered => exact keep rfl trivial
      | discard n =>
        cases hdd : discard n s.rd with
        | none => simp [step, hdd] at hst
        | some q =>
          simp only [step, hdd, Option.map_some, Option.some.injEq, Prod.mk.injEq] at hst
          obtain ⟨rfl, _⟩ := hst
          exact keep rfl (hn n _ _ (List.mem_cons_self ..))
      | read m =>
        simp only [step, Option.some.injEq, Prod.mk.injEq] at hst
        obtain ⟨rfl, _⟩ := hst
        simp only [sizeAfter] at hs keep
        by_cases hb : (read m s.rd).1.1.length > 0
        · rw [if_pos hb] at hs; exact absurd rfl hs
        · rw [if_neg hb] at keep
          exact keep rfl (List.length_eq_zero_iff.1 (Nat.eq_zero_of_not_pos hb))
      | readSlice dl =>
        cases hdd : readSlice dl s.rd with
        | none => simp [step, hdd] at hst
        | some q =>
          simp only [step, hdd, Option.map_some, Option.some.injEq, Prod.mk.injEq] at hst
          obtain ⟨rfl, _⟩ := hst
          simp only [sizeAfter] at hs keep
          by_cases hb : q.1.1.length > 0
          · rw [if_pos hb] at hs; exact absurd rfl hs
          · rw [if_neg hb] at keep
            exact keep rfl (List.length_eq_zero_iff.1 (Nat.eq_zero_of_not_pos hb))
      | unreadByte =>
        simp only [step, Option.some.injEq, Prod.mk.injEq] at hst
        obtain ⟨rfl, _⟩ := hst
        cases hu : (unreadByte s.rd).1 with
        | none => simp only [sizeAfter, hu] at hs; exact absurd rfl hs
        | some e =>
          rw [hu] at keep
          exact keep rfl trivial

/-- **C149** (without `Discard`). Whatever was called before: `UnreadRune` succeeds only if the last call that was not idle is
a `ReadRune` that gave a rune. Missing: `Discard`, see `unread_after_discard_rune`. -/
theorem unread_refused_partial (cap : Nat) (src : Script) (h : List Ev) (s : Rn) (hr : Run cap src h s) (hn : NoDiscard h)
    (hu : (unreadRune s).1 = true) : JustRead h := by
  refine size_spec cap src h s hr hn ?_
  intro hz
  unfold unreadRune at hu
  rw [hz] at hu
  exact absurd hu (by simp)

/-- **Violation of C149.** `Discard` does not clear the size of the last rune: after `ReadRune` (U+20AC) and `Discard(1)`,
`UnreadRune` succeeds and leaves the reader inside that rune, at its second byte — the next rune is U+FFFD. -/
theorem unread_after_discard_rune :
    ∃ s s1, Run 16 [([0xE2, 0x82, 0xAC, 120, 121, 122], none)]
        [.call (.discard 1) (.count 1 none), .rune 0x20AC 3 none] s ∧
      ¬ JustRead [.call (.discard 1) (.count 1 none), .rune 0x20AC 3 none] ∧ unreadRune s = (true, s1) ∧
      s1.rd.data = [0x82, 0xAC, 120, 121, 122] ∧ (readRune s1).map (·.1) = some (0xFFFD, 1, none) := by
  refine ⟨_, _, .call _ _ _ _ _ (.rune _ _ _ _ _ _ .new rfl) rfl, ?_, rfl, by decide +kernel, by decide +kernel⟩
  intro h
  exact absurd h.1 (by simp [Idle])

/-- U+20AC cut after each byte, a byte that begins nothing, an encoding broken off by a connection error. -/
theorem runes_example :
    readAll 9 (Rn.new 16 [([0xE2], none), ([0x82], none), ([], none), ([0xAC, 0xFF], none), ([97, 0xE2], some (.other 7))]) =
      some ([(0x20AC, 3), (0xFFFD, 1), (97, 1), (0xFFFD, 1)], some (.other 7)) ∧
    Steady [([0xE2], none), ([0x82], none), ([], none), ([0xAC, 0xFF], none), ([97, 0xE2], some (.other 7))] := by
  refine ⟨by decide +kernel, ?_⟩
  simp [Steady]

/-- `ReadRune`, `Buffered`, `UnreadRune` (succeeds), `ReadRune` (the same again), `ReadByte`, `UnreadRune` (refused). -/
theorem unread_example :
    ∃ s, Run 16 [([0xE2, 0x82], none), ([0xAC, 120], none)]
      [.unrune false, .call .readByte (.byte (.ok 120)), .rune 0x20AC 3 none, .unrune true,
        .call .buffered (.count 1 none), .rune 0x20AC 3 none] s ∧
      JustRead [.call .buffered (.count 1 none), .rune 0x20AC 3 none] ∧
      ¬ JustRead [.call .readByte (.byte (.ok 120)), .rune 0x20AC 3 none] := by
  refine ⟨_, .unrune _ _ _ _ (.call _ _ _ _ _ (.rune _ _ _ _ _ _ (.unrune _ _ _ _ (.call _ _ _ _ _
    (.rune _ _ _ _ _ _ .new rfl) rfl) rfl) rfl) rfl) rfl, ⟨trivial, trivial⟩, ?_⟩
  intro h
  exact absurd h.1 (by simp [Idle])

/-- A time limit between two bytes of U+20AC: both parts are runes of one byte; after the error the loop goes on. And `UnreadByte`
after U+20AC. -/
theorem error_example :
    readAll 9 (Rn.new 16 [([97, 0xE2], some (.other 1)), ([0x82, 0xAC, 98], none)]) =
      some ([(97, 1), (0xFFFD, 1)], some (.other 1)) ∧
    (readerAfter 9 (Rn.new 16 [([97, 0xE2], some (.other 1)), ([0x82, 0xAC, 98], none)])).map (readAll 9) =
      some (some ([(0xFFFD, 1), (0xFFFD, 1), (98, 1)], some .eof)) ∧
    (((readRune (Rn.new 16 [([0xE2, 0x82, 0xAC, 98], none)])).map (·.2)).bind (call .unreadByte)).map
      (fun q => (q.1, q.2.rd.data)) = some (.unread none, [0xAC, 98]) := by
  refine ⟨by decide +kernel, by decide +kernel, by decide +kernel⟩

end Verif.Bufio.ReadRune
