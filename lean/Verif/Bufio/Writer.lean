import Verif.Bufio.Model
set_option linter.unusedSimpArgs false
set_option linter.unusedVariables false
/-!
# C144: the buffered writer (libcs/bufio/bufio.go:552-768)

The underlying `io.Writer` is adversarial: one entry of a script per call of its `Write`, saying how many bytes it takes
and which error it reports, also in violation of the contract (fewer bytes than given and no error). With an exhausted
script it takes everything. `ReadFrom`: `Bufio/ReadFrom.lean`. Not modelled: writers that report
more bytes than they were given (the Go code then panics).
-/
namespace Verif.Bufio.Writer
open Verif Verif.Bufio

inductive WE where
  | short
  | other (n : Nat)
deriving DecidableEq, Repr

/-- What the calls of the underlying `Write` do: bytes taken at most, error. -/
abbrev Act := Nat × Option Nat

/-- One `wr.Write(p)`: bytes taken, error, the rest of the script. -/
def put : List Act → Bytes → Bytes × Option WE × List Act
  | [], p => (p, none, [])
  | (k, e) :: ws, p => (p.take k, e.map .other, ws)

/-- libcs/bufio/bufio.go:558-563 `Writer`; `buf` is `b.buf[0:b.n]`. `out`: ghost, what the underlying writer has taken. -/
structure Wr where
  cap : Nat
  buf : Bytes
  err : Option WE
  ws : List Act
  out : Bytes
deriving DecidableEq, Repr

/-- libcs/bufio/bufio.go:568-586 `NewWriterSize`, `NewWriter` for a writer that is not a `*Writer`; the default is 4096. -/
def new (size : Nat) (ws : List Act) : Wr := ⟨if size = 0 then 4096 else size, [], none, ws, []⟩

/-- libcs/bufio/bufio.go:600-621 `Flush`. -/
def flush (s : Wr) : Option WE × Wr :=
  if s.err ≠ none then (s.err, s)
  else if s.buf.length = 0 then (none, s)
  else
    let q := put s.ws s.buf
    let e := if q.1.length < s.buf.length ∧ q.2.1 = none then some .short else q.2.1
    if e ≠ none then (e, { s with buf := s.buf.drop q.1.length, err := e, ws := q.2.2, out := s.out ++ q.1 })
    else (none, { s with buf := [], ws := q.2.2, out := s.out ++ q.1 })

/-- libcs/bufio/bufio.go:634-647: the loop of `Write`, with the bytes left and the number taken so far. `none`: out of fuel (see
`write_returns`). -/
def writeLoop : Nat → Wr → Bytes → Nat → Option (Wr × Bytes × Nat)
  | 0, _, _, _ => none
  | f + 1, s, p, nn =>
    if p.length > s.cap - s.buf.length ∧ s.err = none then
      if s.buf.length = 0 then
        let q := put s.ws p
        writeLoop f { s with err := q.2.1, ws := q.2.2, out := s.out ++ q.1 } (p.drop q.1.length) (nn + q.1.length)
      else
        let n := s.cap - s.buf.length
        writeLoop f (flush { s with buf := s.buf ++ p.take n }).2 (p.drop n) (nn + n)
    else some (s, p, nn)

/-- libcs/bufio/bufio.go:633-655 `Write`: the number of bytes and the error. -/
def write (s : Wr) (p : Bytes) : Option ((Nat × Option WE) × Wr) :=
  (writeLoop (2 * s.ws.length + p.length + 4) s p 0).map fun (s, p, nn) =>
    if s.err ≠ none then ((nn, s.err), s)
    else ((nn + p.length, none), { s with buf := s.buf ++ p })

/-- libcs/bufio/bufio.go:658-668 `WriteByte`. -/
def writeByte (s : Wr) (c : UInt8) : Option WE × Wr :=
  if s.err ≠ none then (s.err, s)
  else if s.cap - s.buf.length = 0 then
    let q := flush s
    if q.1 ≠ none then (q.2.err, q.2) else (none, { q.2 with buf := q.2.buf ++ [c] })
  else (none, { s with buf := s.buf ++ [c] })

/-- libcs/bufio/bufio.go:705-711: the loop of `WriteString`. -/
def writeStringLoop : Nat → Wr → Bytes → Nat → Option (Wr × Bytes × Nat)
  | 0, _, _, _ => none
  | f + 1, s, p, nn =>
    if p.length > s.cap - s.buf.length ∧ s.err = none then
      let n := s.cap - s.buf.length
      writeStringLoop f (flush { s with buf := s.buf ++ p.take n }).2 (p.drop n) (nn + n)
    else some (s, p, nn)

/-- libcs/bufio/bufio.go:703-719 `WriteString`. -/
def writeString (s : Wr) (p : Bytes) : Option ((Nat × Option WE) × Wr) :=
  (writeStringLoop (p.length + 2) s p 0).map fun (s, p, nn) =>
    if s.err ≠ none then ((nn, s.err), s)
    else ((nn + p.length, none), { s with buf := s.buf ++ p })

/-- libcs/bufio/bufio.go:672-697 `WriteRune` for a rune whose UTF-8 encoding is `u` (one byte: below `RuneSelf`). -/
def writeRune (s : Wr) (u : Bytes) : Option ((Nat × Option WE) × Wr) :=
  match u with
  | [c] =>
    let q := writeByte s c
    some (if q.1 ≠ none then ((0, q.1), q.2) else ((1, none), q.2))
  | _ =>
    if s.err ≠ none then some ((0, s.err), s)
    else if s.cap - s.buf.length < 4 then
      let q := flush s
      if q.2.err ≠ none then some ((0, q.2.err), q.2)
      else if q.2.cap - q.2.buf.length < 4 then writeString q.2 u
      else some ((u.length, none), { q.2 with buf := q.2.buf ++ u })
    else some ((u.length, none), { s with buf := s.buf ++ u })

inductive Op where
  | write (p : Bytes)
  | writeByte (c : UInt8)
  | writeString (p : Bytes)
  | writeRune (u : Bytes)
  | flush
deriving DecidableEq, Repr

/-- What the caller hands over. -/
def Op.given : Op → Bytes
  | .write p => p
  | .writeByte c => [c]
  | .writeString p => p
  | .writeRune u => u
  | .flush => []

/-- One call: the number of bytes and the error it reports. (`WriteByte` reports none; one if it succeeds.) -/
def call (s : Wr) : Op → Option ((Nat × Option WE) × Wr)
  | .write p => write s p
  | .writeByte c => let q := writeByte s c; some ((if q.1 = none then 1 else 0, q.1), q.2)
  | .writeString p => writeString s p
  | .writeRune u => writeRune s u
  | .flush => let q := flush s; some ((0, q.1), q.2)

/-- A history of calls: the bytes reported as taken, in order, and the final state. -/
def run (s : Wr) : List Op → Option (Bytes × Wr)
  | [] => some ([], s)
  | op :: ops =>
    match call s op with
    | none => none
    | some (r, s') =>
      match run s' ops with
      | none => none
      | some (bs, s'') => some (op.given.take r.1 ++ bs, s'')

/-! ## One call -/

/-- The relation between the state before and after a call that was given `p` and reports `n` bytes and the error `e`. -/
structure Good (s : Wr) (p : Bytes) (n : Nat) (e : Option WE) (s' : Wr) : Prop where
  bytes : s'.out ++ s'.buf = s.out ++ s.buf ++ p.take n
  grows : ∃ d, s'.out = s.out ++ d
  cap : s'.cap = s.cap
  room : s.buf.length ≤ s.cap → s'.buf.length ≤ s'.cap
  le : n ≤ p.length
  err : e = s'.err
  short : n < p.length → e ≠ none
  stuck : s.err ≠ none → s' = s ∧ n = 0 ∧ e = s.err
  script : s'.ws.length ≤ s.ws.length

theorem put_len (ws : List Act) (p : Bytes) :
    (put ws p).1 = p.take (put ws p).1.length ∧ (put ws p).2.2.length ≤ ws.length ∧
      (ws ≠ [] → (put ws p).2.2.length < ws.length) ∧ (ws = [] → (put ws p).1 = p) := by
  cases ws with
  | nil => simp [put]
  | cons a ws =>
    obtain ⟨k, e⟩ := a
    simp [put, List.take_take]

theorem flush_good (s : Wr) : Good s [] 0 (flush s).1 (flush s).2 := by
  obtain ⟨p1, p2, p3, p4⟩ := put_len s.ws s.buf
  unfold flush
  by_cases he : s.err ≠ none
  · rw [if_pos he]
    exact ⟨by simp, ⟨[], by simp⟩, rfl, fun h => h, by simp, rfl, by simp, fun _ => ⟨rfl, rfl, rfl⟩, Nat.le_refl _⟩
  · rw [if_neg he]
    have he' : s.err = none := by simpa using he
    by_cases hb : s.buf.length = 0
    · rw [if_pos hb]
      exact ⟨by simp, ⟨[], by simp⟩, rfl, fun h => h, by simp, he'.symm, by simp, fun h => absurd he' h, Nat.le_refl _⟩
    · rw [if_neg hb]
      dsimp only
      have happ : (put s.ws s.buf).1 ++ s.buf.drop (put s.ws s.buf).1.length = s.buf := by
        conv => lhs; rw [p1]
        rw [List.length_take]
        have : min (put s.ws s.buf).1.length s.buf.length = (put s.ws s.buf).1.length := by
          have := congrArg List.length p1; rw [List.length_take] at this; omega
        rw [this]
        exact List.take_append_drop _ _
      by_cases hx : (if (put s.ws s.buf).1.length < s.buf.length ∧ (put s.ws s.buf).2.1 = none then some .short
          else (put s.ws s.buf).2.1) ≠ none
      · rw [if_pos hx]
        refine ⟨?_, ⟨_, rfl⟩, rfl, fun h => ?_, by simp, rfl, by simp, fun h => absurd he' h, p2⟩
        · dsimp only
          rw [List.append_assoc, happ]; simp
        · dsimp only; simp; omega
      · rw [if_neg hx]
        have hx' : ¬ ((put s.ws s.buf).1.length < s.buf.length ∧ (put s.ws s.buf).2.1 = none) := by
          intro hc; rw [if_pos hc] at hx; exact hx (by simp)
        have hn : (put s.ws s.buf).2.1 = none := by
          rw [if_neg hx'] at hx; simpa using hx
        have hfull : ¬ (put s.ws s.buf).1.length < s.buf.length := fun h => hx' ⟨h, hn⟩
        have hall : (put s.ws s.buf).1 = s.buf := by
          rw [List.drop_eq_nil_of_le (by omega), List.append_nil] at happ; exact happ
        refine ⟨?_, ⟨_, rfl⟩, rfl, fun h => by simp, by simp, he'.symm, by simp, fun h => absurd he' h, p2⟩
        dsimp only
        rw [hall]; simp

/-- A successful `Flush` leaves nothing behind. -/
theorem flush_empties (s : Wr) (h : (flush s).1 = none) : (flush s).2.buf = [] := by
  unfold flush at *
  by_cases he : s.err ≠ none
  · rw [if_pos he] at h; exact absurd h he
  · rw [if_neg he] at h ⊢
    by_cases hb : s.buf.length = 0
    · rw [if_pos hb]; exact List.length_eq_zero_iff.1 hb
    · rw [if_neg hb] at h ⊢
      dsimp only at h ⊢
      by_cases hx : (if (put s.ws s.buf).1.length < s.buf.length ∧ (put s.ws s.buf).2.1 = none then some .short
          else (put s.ws s.buf).2.1) ≠ none
      · rw [if_pos hx] at h; exact absurd h hx
      · rw [if_neg hx]

/-- The same relation inside a call: `n` bytes of `p` have been taken so far. -/
structure Mid (s : Wr) (p : Bytes) (s' : Wr) (p' : Bytes) (n : Nat) : Prop where
  bytes : s'.out ++ s'.buf = s.out ++ s.buf ++ p.take n
  grows : ∃ d, s'.out = s.out ++ d
  cap : s'.cap = s.cap
  room : s.buf.length ≤ s.cap → s'.buf.length ≤ s'.cap
  le : n ≤ p.length
  left : p' = p.drop n
  script : s'.ws.length ≤ s.ws.length

theorem mid_refl (s : Wr) (p : Bytes) : Mid s p s p 0 :=
  ⟨by simp, ⟨[], by simp⟩, rfl, fun h => h, by omega, by simp, Nat.le_refl _⟩

theorem take_add_drop (p : Bytes) (n k : Nat) (h : n + k ≤ p.length) : p.take n ++ (p.drop n).take k = p.take (n + k) := by
  rw [List.take_add]

theorem mid_direct {s s' : Wr} {p p' : Bytes} {n : Nat} (h : Mid s p s' p' n) (hb : s'.buf.length = 0) :
    Mid s p { s' with err := (put s'.ws p').2.1, ws := (put s'.ws p').2.2, out := s'.out ++ (put s'.ws p').1 }
      (p'.drop (put s'.ws p').1.length) (n + (put s'.ws p').1.length) := by
  obtain ⟨b1, ⟨d, b2⟩, b3, b4, b5, b6, b7⟩ := h
  obtain ⟨p1, p2, p3, p4⟩ := put_len s'.ws p'
  have hb' : s'.buf = [] := List.length_eq_zero_iff.1 hb
  have hlen : (put s'.ws p').1.length ≤ p'.length := by
    have := congrArg List.length p1; rw [List.length_take] at this; omega
  have hp : p'.length = p.length - n := by rw [b6]; simp
  refine ⟨?_, ⟨d ++ (put s'.ws p').1, by dsimp only; rw [b2]; simp⟩, b3, b4, by omega, ?_, ?_⟩
  · dsimp only
    rw [hb', List.append_nil] at b1 ⊢
    rw [b1, ← take_add_drop _ _ _ (by omega), ← b6, ← p1]; simp
  · rw [b6, List.drop_drop]
  · exact Nat.le_trans p2 b7

theorem mid_buffer {s s' : Wr} {p p' : Bytes} {n : Nat} (h : Mid s p s' p' n)
    (hlt : p'.length > s'.cap - s'.buf.length) :
    Mid s p (flush { s' with buf := s'.buf ++ p'.take (s'.cap - s'.buf.length) }).2
      (p'.drop (s'.cap - s'.buf.length)) (n + (s'.cap - s'.buf.length)) := by
  obtain ⟨b1, ⟨d, b2⟩, b3, b4, b5, b6, b7⟩ := h
  have hp : p'.length = p.length - n := by rw [b6]; simp
  generalize hk : s'.cap - s'.buf.length = k at *
  have g := flush_good { s' with buf := s'.buf ++ p'.take k }
  obtain ⟨g1, ⟨e, g2⟩, g3, g4, _, _, _, _, g9⟩ := g
  refine ⟨?_, ⟨d ++ e, by rw [g2]; dsimp only; rw [b2]; simp⟩, by rw [g3]; exact b3, fun hh => ?_, by omega, ?_, ?_⟩
  · rw [g1]
    dsimp only
    rw [← take_add_drop _ _ _ (by omega), ← b6]
    simp only [List.take_zero, List.append_nil]
    rw [← List.append_assoc, b1]; simp
  · apply g4
    dsimp only
    have := b4 hh
    simp only [List.length_append, List.length_take]
    omega
  · rw [b6, List.drop_drop]
  · dsimp only at g9; omega

theorem writeLoop_mid (s : Wr) (p : Bytes) : ∀ f s' p' n r, Mid s p s' p' n → writeLoop f s' p' n = some r →
    Mid s p r.1 r.2.1 r.2.2 ∧ (r.1.err = none → r.2.1.length ≤ r.1.cap - r.1.buf.length) := by
  intro f
  induction f with
  | zero => intro s' p' n r _ h; cases h
  | succ f ih =>
    intro s' p' n r hm h
    unfold writeLoop at h
    split at h
    · rename_i hc
      split at h
      · rename_i hb
        exact ih _ _ _ _ (mid_direct hm hb) h
      · exact ih _ _ _ _ (mid_buffer hm hc.1) h
    · rename_i hc
      cases h
      refine ⟨hm, fun he => ?_⟩
      by_cases hgt : p'.length > s'.cap - s'.buf.length
      · exact absurd ⟨hgt, he⟩ hc
      · dsimp only; omega

theorem writeStringLoop_mid (s : Wr) (p : Bytes) : ∀ f s' p' n r, Mid s p s' p' n → writeStringLoop f s' p' n = some r →
    Mid s p r.1 r.2.1 r.2.2 ∧ (r.1.err = none → r.2.1.length ≤ r.1.cap - r.1.buf.length) := by
  intro f
  induction f with
  | zero => intro s' p' n r _ h; cases h
  | succ f ih =>
    intro s' p' n r hm h
    unfold writeStringLoop at h
    split at h
    · rename_i hc
      exact ih _ _ _ _ (mid_buffer hm hc.1) h
    · rename_i hc
      cases h
      refine ⟨hm, fun he => ?_⟩
      by_cases hgt : p'.length > s'.cap - s'.buf.length
      · exact absurd ⟨hgt, he⟩ hc
      · dsimp only; omega

/-- The end of `Write` and of `WriteString`. -/
theorem finish {s : Wr} {p : Bytes} {r : Wr × Bytes × Nat} (hm : Mid s p r.1 r.2.1 r.2.2)
    (hl : r.1.err = none → r.2.1.length ≤ r.1.cap - r.1.buf.length) (hs : s.err ≠ none → r = (s, p, 0)) (n : Nat) (e : Option WE) (s' : Wr)
    (h : (if r.1.err ≠ none then ((r.2.2, r.1.err), r.1)
      else ((r.2.2 + r.2.1.length, none), { r.1 with buf := r.1.buf ++ r.2.1 })) = ((n, e), s')) : Good s p n e s' := by
  obtain ⟨s1, p1, nn⟩ := r
  dsimp only at *
  obtain ⟨b1, b2, b3, b4, b5, b6, b7⟩ := hm
  have hp : p1.length = p.length - nn := by rw [b6]; simp
  by_cases he : s1.err ≠ none
  · rw [if_pos he] at h
    cases h
    refine ⟨b1, b2, b3, b4, b5, rfl, fun _ => he, fun hx => ?_, b7⟩
    have := hs hx; cases this; exact ⟨rfl, rfl, rfl⟩
  · rw [if_neg he] at h
    cases h
    have he' : s1.err = none := by simpa using he
    refine ⟨?_, b2, b3, fun hh => ?_, by omega, he'.symm, fun hx => by omega, fun hx => ?_, b7⟩
    · dsimp only
      rw [← List.append_assoc, b1, b6, show nn + (List.drop nn p).length = p.length by simp; omega, List.take_length,
        List.append_assoc, List.take_append_drop]
    · dsimp only; have := b4 hh; have := hl he'; simp; omega
    · have := hs hx; cases this; exact absurd he' hx

theorem writeLoop_stuck (f : Nat) (s : Wr) (p : Bytes) (h : s.err ≠ none) : writeLoop (f + 1) s p 0 = some (s, p, 0) := by
  unfold writeLoop; rw [if_neg (fun hc => h hc.2)]

theorem writeStringLoop_stuck (f : Nat) (s : Wr) (p : Bytes) (h : s.err ≠ none) :
    writeStringLoop (f + 1) s p 0 = some (s, p, 0) := by
  unfold writeStringLoop; rw [if_neg (fun hc => h hc.2)]

theorem write_good (s : Wr) (p : Bytes) (n : Nat) (e : Option WE) (s' : Wr) (h : write s p = some ((n, e), s')) :
    Good s p n e s' := by
  unfold write at h
  cases hl : writeLoop (2 * s.ws.length + p.length + 4) s p 0 with
  | none => rw [hl] at h; cases h
  | some r =>
    rw [hl] at h
    obtain ⟨m1, m2⟩ := writeLoop_mid s p _ _ _ _ _ (mid_refl s p) hl
    refine finish m1 m2 (fun hx => ?_) n e s' (Option.some.inj h)
    rw [writeLoop_stuck _ s p hx] at hl
    exact (Option.some.inj hl).symm

theorem writeString_good (s : Wr) (p : Bytes) (n : Nat) (e : Option WE) (s' : Wr)
    (h : writeString s p = some ((n, e), s')) : Good s p n e s' := by
  unfold writeString at h
  cases hl : writeStringLoop (p.length + 2) s p 0 with
  | none => rw [hl] at h; cases h
  | some r =>
    rw [hl] at h
    obtain ⟨m1, m2⟩ := writeStringLoop_mid s p _ _ _ _ _ (mid_refl s p) hl
    refine finish m1 m2 (fun hx => ?_) n e s' (Option.some.inj h)
    rw [writeStringLoop_stuck _ s p hx] at hl
    exact (Option.some.inj hl).symm

/-- After a successful `Flush`, bytes that fit may be put into the buffer. -/
theorem good_after_flush (s : Wr) (u : Bytes) (he : s.err = none) (hf : (flush s).1 = none)
    (hu : u.length ≤ (flush s).2.cap - (flush s).2.buf.length) :
    Good s u u.length none { (flush s).2 with buf := (flush s).2.buf ++ u } := by
  obtain ⟨g1, g2, g3, g4, _, g6, _, _, g9⟩ := flush_good s
  refine ⟨?_, g2, g3, fun h => ?_, Nat.le_refl _, by dsimp only; rw [← g6, hf], by omega, fun h => absurd he h, g9⟩
  · dsimp only; rw [← List.append_assoc, g1]; simp
  · dsimp only; have := g4 h; simp; omega

theorem writeByte_good (s : Wr) (c : UInt8) (hc : 0 < s.cap) :
    Good s [c] (if (writeByte s c).1 = none then 1 else 0) (writeByte s c).1 (writeByte s c).2 := by
  unfold writeByte
  by_cases he : s.err ≠ none
  · rw [if_pos he, if_neg he]
    exact ⟨by simp, ⟨[], by simp⟩, rfl, fun h => h, by simp, rfl, fun _ => he, fun _ => ⟨rfl, rfl, rfl⟩, Nat.le_refl _⟩
  · rw [if_neg he]
    have he' : s.err = none := by simpa using he
    by_cases ha : s.cap - s.buf.length = 0
    · rw [if_pos ha]
      dsimp only
      obtain ⟨g1, g2, g3, g4, _, g6, _, _, g9⟩ := flush_good s
      by_cases hf : (flush s).1 ≠ none
      · rw [if_pos hf, ← g6, if_neg hf]
        exact ⟨by rw [g1]; simp, g2, g3, g4, by simp, g6, fun _ => hf, fun h => absurd he' h, g9⟩
      · rw [if_neg hf, if_pos rfl]
        have hf' : (flush s).1 = none := by simpa using hf
        refine good_after_flush s [c] he' hf' ?_
        rw [flush_empties s hf', g3]
        simp; omega
    · rw [if_neg ha, if_pos rfl]
      refine ⟨by simp, ⟨[], by simp⟩, rfl, fun h => by simp; omega, by simp, he'.symm, by simp, fun h => absurd he' h, Nat.le_refl _⟩

theorem writeRune_good (s : Wr) (u : Bytes) (hc : 0 < s.cap) (hu : 1 ≤ u.length ∧ u.length ≤ 4) (n : Nat) (e : Option WE)
    (s' : Wr) (h : writeRune s u = some ((n, e), s')) : Good s u n e s' := by
  unfold writeRune at h
  split at h
  · rename_i c
    have g := writeByte_good s c hc
    dsimp only at h
    by_cases hb : (writeByte s c).1 ≠ none
    · rw [if_pos hb] at h; rw [if_neg hb] at g; cases h; exact g
    · have hb' : (writeByte s c).1 = none := by simpa using hb
      rw [if_neg hb] at h; rw [hb'] at g; rw [if_pos rfl] at g; cases h; exact g
  · by_cases he : s.err ≠ none
    · rw [if_pos he] at h
      cases h
      exact ⟨by simp, ⟨[], by simp⟩, rfl, fun h => h, by simp, rfl, fun _ => he, fun _ => ⟨rfl, rfl, rfl⟩, Nat.le_refl _⟩
    · rw [if_neg he] at h
      have he' : s.err = none := by simpa using he
      by_cases ha : s.cap - s.buf.length < 4
      · rw [if_pos ha] at h
        dsimp only at h
        obtain ⟨g1, g2, g3, g4, _, g6, _, _, g9⟩ := flush_good s
        by_cases hf : (flush s).2.err ≠ none
        · rw [if_pos hf] at h
          cases h
          exact ⟨by rw [g1]; simp, g2, g3, g4, by simp, rfl, fun _ => hf, fun h => absurd he' h, g9⟩
        · rw [if_neg hf] at h
          have hf' : (flush s).1 = none := by rw [g6]; simpa using hf
          by_cases hk : (flush s).2.cap - (flush s).2.buf.length < 4
          · rw [if_pos hk] at h
            obtain ⟨k1, ⟨d, k2⟩, k3, k4, k5, k6, k7, k8, k9⟩ := writeString_good _ _ _ _ _ h
            obtain ⟨d', g2'⟩ := g2
            refine ⟨?_, ⟨d' ++ d, by rw [k2, g2']; simp⟩, by rw [k3, g3], fun hh => k4 (g4 hh), k5, k6, k7,
              fun hx => absurd he' hx, Nat.le_trans k9 g9⟩
            rw [k1, g1]; simp
          · rw [if_neg hk] at h
            cases h
            exact good_after_flush s u he' hf' (by omega)
      · rw [if_neg ha] at h
        cases h
        refine ⟨by simp, ⟨[], by simp⟩, rfl, fun h => by simp; omega, Nat.le_refl _, he'.symm, by omega, fun h => absurd he' h, Nat.le_refl _⟩

/-- A rune has one to four bytes. -/
def Op.Ok : Op → Prop
  | .writeRune u => 1 ≤ u.length ∧ u.length ≤ 4
  | _ => True

/-- **C144.** Each call, whatever the underlying writer does: the bytes it reports as taken are appended, in order and once,
to what was taken before (what the underlying writer has, then what is in the buffer); a call that takes less than it was
given reports an error; after an error nothing is taken any more and the same error is reported. -/
theorem one_call (s : Wr) (op : Op) (hop : op.Ok) (hc : 0 < s.cap) (n : Nat) (e : Option WE) (s' : Wr)
    (h : call s op = some ((n, e), s')) : Good s op.given n e s' := by
  cases op with
  | write p => exact write_good s p n e s' h
  | writeString p => exact writeString_good s p n e s' h
  | writeRune u => exact writeRune_good s u hc hop n e s' h
  | writeByte c =>
    simp only [call] at h
    have g := writeByte_good s c hc
    cases h
    exact g
  | flush =>
    simp only [call] at h
    have g := flush_good s
    cases h
    exact g

/-! ## Termination -/

theorem writeLoop_total : ∀ f (s : Wr) (p : Bytes) n, 0 < s.cap → s.buf.length ≤ s.cap →
    2 * s.ws.length + p.length + (if s.buf.length = 0 then 0 else 1) + 1 ≤ f →
    (writeLoop f s p n).isSome := by
  intro f
  induction f with
  | zero => intro s p n _ _ h; omega
  | succ f ih =>
    intro s p n hc hr hf
    unfold writeLoop
    split
    · rename_i hcond
      split
      · rename_i hb
        obtain ⟨p1, p2, p3, p4⟩ := put_len s.ws p
        apply ih
        · exact hc
        · exact hr
        · dsimp only
          rw [if_pos hb] at hf ⊢
          rw [List.length_drop]
          by_cases hw : s.ws = []
          · have := p4 hw; rw [this]; omega
          · have := p3 hw; omega
      · rename_i hb
        have g := flush_good { s with buf := s.buf ++ p.take (s.cap - s.buf.length) }
        obtain ⟨g1, g2, g3, g4, _, g6, _, _, g9⟩ := g
        have hlen : (s.buf ++ p.take (s.cap - s.buf.length)).length ≤ s.cap := by simp; omega
        apply ih
        · rw [g3]; exact hc
        · exact g4 hlen
        · dsimp only at g9
          rw [List.length_drop]
          rw [if_neg hb] at hf
          cases hfl : (flush { s with buf := s.buf ++ p.take (s.cap - s.buf.length) }).1 with
          | none =>
            rw [flush_empties _ hfl]
            simp
            omega
          | some x =>
            -- the flush failed, so an entry of the script was used
            have : (flush { s with buf := s.buf ++ p.take (s.cap - s.buf.length) }).2.ws.length < s.ws.length := by
              unfold flush at hfl ⊢
              rw [if_neg (by simp [hcond.2])] at hfl ⊢
              rw [if_neg (by dsimp only; rw [List.length_append]; omega)] at hfl ⊢
              dsimp only at hfl ⊢
              obtain ⟨p1, p2, p3, p4⟩ := put_len s.ws (s.buf ++ p.take (s.cap - s.buf.length))
              by_cases hw : s.ws = []
              · exfalso
                rw [hw] at hfl
                simp [put] at hfl
              · have := p3 hw
                generalize (if (put s.ws (s.buf ++ p.take (s.cap - s.buf.length))).1.length <
                    (s.buf ++ p.take (s.cap - s.buf.length)).length ∧
                    (put s.ws (s.buf ++ p.take (s.cap - s.buf.length))).2.1 = none then some WE.short
                  else (put s.ws (s.buf ++ p.take (s.cap - s.buf.length))).2.1) = e
                by_cases hx : e ≠ none
                · rw [if_pos hx]; exact this
                · rw [if_neg hx]; exact this
            split <;> omega
    · rfl

/-- **C144.** `Write` always returns. -/
theorem write_returns (s : Wr) (p : Bytes) (hc : 0 < s.cap) (hr : s.buf.length ≤ s.cap) : (write s p).isSome := by
  unfold write
  have := writeLoop_total (2 * s.ws.length + p.length + 4) s p 0 hc hr (by split <;> omega)
  cases hl : writeLoop (2 * s.ws.length + p.length + 4) s p 0 with
  | none => rw [hl] at this; cases this
  | some r => rfl

theorem writeStringLoop_total : ∀ f (s : Wr) (p : Bytes) n, 0 < s.cap → s.buf.length ≤ s.cap →
    p.length + (if s.cap - s.buf.length = 0 ∧ s.err = none then 1 else 0) + 1 ≤ f → (writeStringLoop f s p n).isSome := by
  intro f
  induction f with
  | zero => intro s p n _ _ h; omega
  | succ f ih =>
    intro s p n hc hr hf
    unfold writeStringLoop
    split
    · rename_i hcond
      have g := flush_good { s with buf := s.buf ++ p.take (s.cap - s.buf.length) }
      obtain ⟨g1, g2, g3, g4, _, g6, _, _, g9⟩ := g
      have hlen : (s.buf ++ p.take (s.cap - s.buf.length)).length ≤ s.cap := by simp; omega
      apply ih
      · rw [g3]; exact hc
      · exact g4 hlen
      · rw [List.length_drop, g3]
        cases hfl : (flush { s with buf := s.buf ++ p.take (s.cap - s.buf.length) }).1 with
        | none =>
          rw [flush_empties _ hfl]
          simp only [List.length_nil, Nat.sub_zero]
          rw [if_neg (fun hh => by have := hh.1; omega)]
          by_cases h0 : s.cap - s.buf.length = 0
          · rw [if_pos ⟨h0, hcond.2⟩] at hf; omega
          · rw [if_neg (fun hh => h0 hh.1)] at hf; omega
        | some x =>
          rw [if_neg (by intro hh; rw [hfl, hh.2] at g6; cases g6)]
          by_cases h0 : s.cap - s.buf.length = 0
          · rw [if_pos ⟨h0, hcond.2⟩] at hf; omega
          · rw [if_neg (fun hh => h0 hh.1)] at hf; omega
    · rfl

theorem writeString_returns (s : Wr) (p : Bytes) (hc : 0 < s.cap) (hr : s.buf.length ≤ s.cap) :
    (writeString s p).isSome := by
  unfold writeString
  have := writeStringLoop_total (p.length + 2) s p 0 hc hr (by split <;> omega)
  cases hl : writeStringLoop (p.length + 2) s p 0 with
  | none => rw [hl] at this; cases this
  | some r => rfl

/-- **C144.** Every call returns. -/
theorem call_returns (s : Wr) (op : Op) (hc : 0 < s.cap) (hr : s.buf.length ≤ s.cap) : (call s op).isSome := by
  cases op with
  | write p => exact write_returns s p hc hr
  | writeString p => exact writeString_returns s p hc hr
  | writeByte c => rfl
  | flush => rfl
  | writeRune u =>
    simp only [call]
    unfold writeRune
    split
    · rfl
    · split
      · rfl
      · split
        · dsimp only
          split
          · rfl
          · split
            · obtain ⟨g1, g2, g3, g4, _, _, _, _, _⟩ := flush_good s
              exact writeString_returns _ _ (by rw [g3]; exact hc) (g4 hr)
            · rfl
        · rfl

/-! ## Histories -/

theorem run_good (ops : List Op) : ∀ (s : Wr), (∀ op ∈ ops, op.Ok) → 0 < s.cap → s.buf.length ≤ s.cap →
    ∃ bs s', run s ops = some (bs, s') ∧ s'.out ++ s'.buf = s.out ++ s.buf ++ bs ∧ s'.buf.length ≤ s'.cap ∧
      s'.cap = s.cap ∧ (∃ d, s'.out = s.out ++ d) := by
  induction ops with
  | nil => intro s _ _ hr; exact ⟨[], s, rfl, by simp, hr, rfl, [], by simp⟩
  | cons op ops ih =>
    intro s hok hc hr
    have hret := call_returns s op hc hr
    cases hcall : call s op with
    | none => rw [hcall] at hret; cases hret
    | some r =>
      obtain ⟨⟨n, e⟩, s1⟩ := r
      obtain ⟨g1, ⟨d, g2⟩, g3, g4, _, _, _, _, _⟩ := one_call s op (hok op (by simp)) hc n e s1 hcall
      obtain ⟨bs, s2, h1, h2, h3, h4, ⟨d', h5⟩⟩ := ih s1 (fun x hx => hok x (by simp [hx])) (by omega) (g4 hr)
      refine ⟨op.given.take n ++ bs, s2, ?_, ?_, h3, by omega, d ++ d', by rw [h5, g2]; simp⟩
      · unfold run; rw [hcall]; dsimp only; rw [h1]
      · rw [h2, g1]; simp

/-- **C144.** Over any history of calls on a new writer and any behaviour of the underlying writer: what the underlying
writer has taken is a beginning of the bytes reported as taken, in order; the rest, at most a buffer full, is in the
buffer; after a `Flush` that reports success nothing is held back. -/
theorem stream (size : Nat) (ws : List Act) (ops : List Op) (hok : ∀ op ∈ ops, op.Ok) :
    ∃ bs s, run (new size ws) ops = some (bs, s) ∧ s.out ++ s.buf = bs ∧
      s.buf.length ≤ (if size = 0 then 4096 else size) ∧
      ((flush s).1 = none → (flush s).2.out = bs) := by
  have hc : 0 < (new size ws).cap := by simp only [new]; split <;> omega
  obtain ⟨bs, s, h1, h2, h3, h4, _⟩ := run_good ops (new size ws) hok hc (by simp [new])
  have h2' : s.out ++ s.buf = bs := by simpa [new] using h2
  refine ⟨bs, s, h1, h2', by rw [h4] at h3; exact h3, fun hf => ?_⟩
  obtain ⟨g1, _⟩ := flush_good s
  rw [flush_empties s hf] at g1
  simpa [h2'] using g1

/-- **C144.** A writer that never fails takes everything: each call reports the whole length and no error. -/
theorem no_failure (s : Wr) (op : Op) (hop : op.Ok) (hc : 0 < s.cap) (hr : s.buf.length ≤ s.cap) (he : s.err = none)
    (hw : s.ws = []) : ∃ s', call s op = some ((op.given.length, none), s') ∧ s'.err = none ∧ s'.ws = [] := by
  have hf : ∀ t : Wr, t.err = none → t.ws = [] → (flush t).1 = none ∧ (flush t).2.err = none ∧ (flush t).2.ws = [] := by
    intro t ht hw
    unfold flush
    rw [if_neg (by simp [ht])]
    split
    · exact ⟨rfl, ht, hw⟩
    · rw [hw]; simp [put, ht]
  have hwl : ∀ f t p n r, t.err = none → t.ws = [] → writeLoop f t p n = some r → r.1.err = none ∧ r.1.ws = [] := by
    intro f
    induction f with
    | zero => intro t p n r _ _ h; cases h
    | succ f ih =>
      intro t p n r ht htw h
      unfold writeLoop at h
      split at h
      · split at h
        · refine ih _ _ _ _ ?_ ?_ h
          · dsimp only; rw [htw]; rfl
          · dsimp only; rw [htw]; rfl
        · have := hf { t with buf := t.buf ++ p.take (t.cap - t.buf.length) } ht htw
          exact ih _ _ _ _ this.2.1 this.2.2 h
      · cases h; exact ⟨ht, htw⟩
  have hsl : ∀ f t p n r, t.err = none → t.ws = [] → writeStringLoop f t p n = some r → r.1.err = none ∧ r.1.ws = [] := by
    intro f
    induction f with
    | zero => intro t p n r _ _ h; cases h
    | succ f ih =>
      intro t p n r ht htw h
      unfold writeStringLoop at h
      split at h
      · have := hf { t with buf := t.buf ++ p.take (t.cap - t.buf.length) } ht htw
        exact ih _ _ _ _ this.2.1 this.2.2 h
      · cases h; exact ⟨ht, htw⟩
  have hstr : ∀ t p n e t', t.err = none → t.ws = [] → writeString t p = some ((n, e), t') → e = none ∧ t'.ws = [] := by
    intro t p n e t' ht htw h
    unfold writeString at h
    cases hl : writeStringLoop (p.length + 2) t p 0 with
    | none => rw [hl] at h; cases h
    | some r =>
      rw [hl] at h
      obtain ⟨a, b⟩ := hsl _ _ _ _ _ ht htw hl
      have h := Option.some.inj h
      dsimp only at h
      rw [if_neg (by simp [a])] at h
      cases h
      exact ⟨rfl, b⟩
  have key : ∀ n e s', call s op = some ((n, e), s') → e = none ∧ s'.ws = [] := by
    intro n e s' h
    cases op with
    | write p =>
      simp only [call] at h
      unfold write at h
      cases hl : writeLoop (2 * s.ws.length + p.length + 4) s p 0 with
      | none => rw [hl] at h; cases h
      | some r =>
        rw [hl] at h
        obtain ⟨a, b⟩ := hwl _ _ _ _ _ he hw hl
        have h := Option.some.inj h
        dsimp only at h
        rw [if_neg (by simp [a])] at h
        cases h
        exact ⟨rfl, b⟩
    | writeString p => exact hstr s p n e s' he hw h
    | writeByte c =>
      simp only [call] at h
      have hb : (writeByte s c).1 = none ∧ (writeByte s c).2.ws = [] := by
        unfold writeByte
        rw [if_neg (by simp [he])]
        split
        · dsimp only; rw [if_neg (by simp [(hf s he hw).1])]; exact ⟨rfl, (hf s he hw).2.2⟩
        · exact ⟨rfl, hw⟩
      cases h
      exact hb
    | flush =>
      simp only [call] at h
      cases h
      exact ⟨(hf s he hw).1, (hf s he hw).2.2⟩
    | writeRune u =>
      simp only [call] at h
      unfold writeRune at h
      split at h
      · rename_i c
        have hb : (writeByte s c).1 = none ∧ (writeByte s c).2.ws = [] := by
          unfold writeByte
          rw [if_neg (by simp [he])]
          split
          · dsimp only; rw [if_neg (by simp [(hf s he hw).1])]; exact ⟨rfl, (hf s he hw).2.2⟩
          · exact ⟨rfl, hw⟩
        dsimp only at h
        rw [if_neg (by simp [hb.1])] at h
        cases h
        exact ⟨rfl, hb.2⟩
      · rw [if_neg (by simp [he])] at h
        split at h
        · dsimp only at h
          rw [if_neg (by simp [(hf s he hw).2.1])] at h
          split at h
          · exact hstr _ _ _ _ _ (hf s he hw).2.1 (hf s he hw).2.2 h
          · cases h; exact ⟨rfl, (hf s he hw).2.2⟩
        · cases h; exact ⟨rfl, hw⟩
  have hret := call_returns s op hc hr
  cases hcall : call s op with
  | none => rw [hcall] at hret; cases hret
  | some r =>
    obtain ⟨⟨n, e⟩, s1⟩ := r
    obtain ⟨k1, k2⟩ := key n e s1 hcall
    obtain ⟨_, _, _, _, g5, g6, g7, _, _⟩ := one_call s op hop hc n e s1 hcall
    have : n = op.given.length := by
      by_cases hx : n < op.given.length
      · exact absurd k1 (g7 hx)
      · omega
    subst this
    subst k1
    exact ⟨s1, rfl, g6.symm, k2⟩

/-- An example: a buffer of 4 bytes, an underlying writer that takes 3 bytes and then reports error 7. -/
theorem example_run : run (new 4 [(9, none), (3, some 7)]) [.write [1, 2, 3], .write [4, 5, 6], .writeByte 7, .write [8, 9],
    .flush] = some ([1, 2, 3, 4, 5, 6, 7, 8], ⟨4, [8], some (.other 7), [], [1, 2, 3, 4, 5, 6, 7]⟩) := by
  decide +kernel

end Verif.Bufio.Writer
