import Verif.Common
set_option linter.unusedSimpArgs false
set_option linter.unusedVariables false
/-! # C30 — rewriting the Host header

Models `libcs/client/task.go` 37-199 (`httpTask`, `setHost`, `Write`, `isGoodToWrite`).

Simplifications: the local connection accepts every write (a write error ends the task); buffers are
values — in the code the replaced line's remainder is written from a slice that may alias the pool buffer
just returned to the pool (`task.go` 185-191): Util/PoolUsers.lean (C122). -/

namespace Verif.Client.HostRewrite
open Verif

/-- libcs/client/task.go:34 `host = []byte("Host:")`. -/
def HOST : Bytes := [72, 111, 115, 116, 58]

/-- libcs/client/task.go:37-46: the fields `tempBuf` (nil or its contents), `skipping`, `passing`. -/
structure St where
  temp : Option Bytes
  skipping : Bool := false
  passing : Bool := false
deriving Repr, DecidableEq

/-- libcs/client/task.go:55-66 `setHost`: the replacement line, or `ErrHostIsTooLong`. -/
def setHost (host : Bytes) : Option (Bytes × St) :=
  if host.length > 200 then none
  else some ([72, 111, 115, 116, 58, 32] ++ host ++ [13, 10], { temp := some [] })

/-- `bytes.IndexByte(p, '\n')`: `p[:i+1]` and `p[i+1:]`, or none. -/
def cutLine : Bytes → Option (Bytes × Bytes)
  | [] => none
  | c :: r => if c = 10 then some ([c], r) else (cutLine r).map fun x => (c :: x.1, x.2)

inductive Verdict | good | unsure | replace
deriving DecidableEq

/-- libcs/client/task.go:207-219 `isGoodToWrite`. -/
def isGoodToWrite (p : Bytes) : Verdict :=
  let l := if p.length > 5 then 5 else p.length
  if p.take l = HOST.take l then (if l < 5 then .unsure else .replace) else .good

/-- libcs/client/task.go:130-198: the loop over the lines of `p` at a line start.  Returns the bytes written to the
local connection, the new state and the number of bytes counted (`nw` sums; not added to `n` when
`updated`).  `fuel` bounds the number of lines; `p.length` suffices (`loop_spec`). -/
def loop (h : Bytes) : Nat → Bytes → Bytes × St × Nat
  | 0, _ => ([], { temp := some [] }, 0)
  | fuel + 1, p =>
    if p = [] then ([], { temp := some [] }, 0)
    else
      match isGoodToWrite p with
      | .good =>
        match cutLine p with
        | none => (p, { temp := some [], passing := true }, p.length)
        | some (l, r) =>
          let x := loop h fuel r
          (l ++ x.1, x.2.1, l.length + x.2.2)
      | .unsure => ([], { temp := some p }, p.length)
      | .replace =>
        match cutLine p with
        | none => (h, { temp := some [], skipping := true }, p.length)
        | some (l, r) => (h ++ r, { temp := none }, l.length + r.length)

/-- libcs/client/task.go:109-128 and the loop: `p` arrives at a line start while `t` is held back. -/
def atLine (h : Bytes) (t p : Bytes) : Bytes × St × Nat :=
  if p.length + t.length < 5 then ([], { temp := some (t ++ p) }, p.length)
  else if t.length > 0 then
    let x := loop h ((t ++ p).length + 1) (t ++ p)
    (x.1, x.2.1, p.length)
  else loop h (p.length + 1) p

/-- libcs/client/task.go:68-199 `Write`: bytes written to the local connection, new state, returned `n`. -/
def write (h : Bytes) (s : St) (p : Bytes) : Bytes × St × Nat :=
  match s.temp with
  | none => (p, s, p.length)
  | some t =>
    if s.skipping then
      match cutLine p with
      | none => ([], s, p.length)
      | some (l, r) =>
        if p.length ≤ l.length then ([], { temp := none }, p.length)
        else (r, { temp := none }, r.length + l.length)
    else if s.passing then
      match cutLine p with
      | none => (p, s, p.length)
      | some (l, r) =>
        if r.length ≤ 0 then (l, { s with passing := false }, l.length)
        else
          let x := atLine h t r
          (l ++ x.1, x.2.1, l.length + x.2.2)
    else atLine h t p

/-- A request arriving in pieces: everything written, the final state, the returned lengths. -/
def writes (h : Bytes) : St → List Bytes → Bytes × St × List Nat
  | s, [] => ([], s, [])
  | s, p :: ps =>
    let a := write h s p
    let b := writes h a.2.1 ps
    (a.1 ++ b.1, b.2.1, a.2.2 :: b.2.2)

/-! ## Specification -/

/-- `a` ends where a line begins. -/
def LineStart (a : Bytes) : Prop := a = [] ∨ ∃ a', a = a' ++ [10]

/-- No line of `b` begins with `Host:`. -/
def NoHostLine (b : Bytes) : Prop := ∀ a c, b = a ++ HOST ++ c → ¬ LineStart a

/-! ## Lemmas -/

theorem cutLine_none {p : Bytes} : cutLine p = none ↔ (10 : UInt8) ∉ p := by
  induction p with
  | nil => simp [cutLine]
  | cons a r ih =>
    simp only [cutLine]
    by_cases h : a = 10
    · simp [h]
    · simp [h, ih, show ¬ (10 : UInt8) = a from fun x => h x.symm]

theorem cutLine_some {p l r : Bytes} (h : cutLine p = some (l, r)) :
    ∃ l', l = l' ++ [10] ∧ (10 : UInt8) ∉ l' ∧ p = l ++ r := by
  induction p generalizing l with
  | nil => simp [cutLine] at h
  | cons a t ih =>
    simp only [cutLine] at h
    by_cases ha : a = 10
    · simp only [ha, if_true, Option.some.injEq, Prod.mk.injEq] at h
      obtain ⟨rfl, rfl⟩ := h
      exact ⟨[], by simp, by simp, by simp [ha]⟩
    · simp only [ha, if_false, Option.map_eq_some_iff] at h
      obtain ⟨⟨l1, r1⟩, h1, h2⟩ := h
      simp only [Prod.mk.injEq] at h2
      obtain ⟨rfl, rfl⟩ := h2
      obtain ⟨l', e1, e2, e3⟩ := ih h1
      refine ⟨a :: l', by simp [e1], ?_, by simp [e3]⟩
      simp [e2, show ¬ (10 : UInt8) = a from fun x => ha x.symm]

/-- The five bytes are those of the header's name and colon. -/
theorem host_is_the_header : HOST = ascii "Host:" := by decide +kernel

theorem host_no_nl : (10 : UInt8) ∉ HOST := by decide

theorem take_eq_prefix {p : Bytes} {n : Nat} (h : p.take n = HOST) : ∃ r, p = HOST ++ r :=
  ⟨p.drop n, by rw [← h, List.take_append_drop]⟩

theorem verdict_replace {p : Bytes} (h : isGoodToWrite p = .replace) : ∃ r, p = HOST ++ r := by
  unfold isGoodToWrite at h
  simp only at h
  by_cases hl : p.length > 5
  · simp only [hl, if_true] at h
    split at h
    · rename_i he
      exact take_eq_prefix (by rw [he]; rfl)
    · simp at h
  · simp only [hl, if_false] at h
    split at h
    · rename_i he
      split at h
      · simp at h
      · have : p.length = 5 := by omega
        rw [this] at he
        exact take_eq_prefix (by rw [he]; rfl)
    · simp at h

theorem verdict_unsure {p : Bytes} (h : isGoodToWrite p = .unsure) : p.length < 5 := by
  unfold isGoodToWrite at h
  simp only at h
  by_cases hl : p.length > 5
  · simp only [hl, if_true] at h
    split at h <;> simp at h
  · simp only [hl, if_false] at h
    split at h
    · split at h
      · assumption
      · simp at h
    · simp at h

theorem verdict_good {p : Bytes} (h : isGoodToWrite p = .good) :
    ¬ (∃ r, p = HOST ++ r) ∧ ¬ (∃ r, HOST = p ++ r) := by
  unfold isGoodToWrite at h
  simp only at h
  by_cases hl : p.length > 5
  · simp only [hl, if_true] at h
    split at h
    · simp at h
    · rename_i hne
      refine ⟨?_, ?_⟩
      · rintro ⟨r, rfl⟩; exact hne (by simp [HOST])
      · rintro ⟨r, hr⟩
        have := congrArg List.length hr
        simp [HOST] at this; omega
  · simp only [hl, if_false] at h
    split at h
    · split at h <;> simp at h
    · rename_i hne
      refine ⟨?_, ?_⟩
      · rintro ⟨r, rfl⟩
        have : r = [] := by
          cases r with
          | nil => rfl
          | cons => simp [HOST] at hl
        subst this
        exact hne (by simp)
      · rintro ⟨r, hr⟩
        refine hne ?_
        rw [hr]
        simp

/-- One more line without `Host:` at its start. -/
theorem noHost_line {B l x : Bytes} (hB : NoHostLine B) (hs : LineStart B) (hl : (10 : UInt8) ∉ l)
    (hx : x = [] ∨ x = [10]) (hp : ¬ ∃ r, l = HOST ++ r) : NoHostLine (B ++ l ++ x) := by
  intro a c he ha
  have hlen := congrArg List.length he
  have hxl : x.length ≤ 1 := by rcases hx with rfl | rfl <;> simp
  simp only [List.length_append, show HOST.length = 5 from rfl] at hlen
  have hget : ∀ i : Nat, (B ++ l ++ x)[i]? = (a ++ HOST ++ c)[i]? := fun i => by rw [he]
  have hH : ∀ i : Nat, i < 5 → (a ++ HOST ++ c)[a.length + i]? = HOST[i]? := by
    intro i hi
    rw [List.append_assoc, List.getElem?_append_right (by omega)]
    rw [List.getElem?_append_left (by simp [HOST]; omega)]
    congr 1; omega
  have hHne : ∀ i : Nat, i < 5 → HOST[i]? ≠ some 10 := by
    intro i hi h
    exact host_no_nl (List.mem_of_getElem? h)
  rcases Nat.lt_trichotomy a.length B.length with h | h | h
  · -- `a` is shorter than `B`
    by_cases h5 : a.length + 5 ≤ B.length
    · -- the whole occurrence lies inside `B`
      refine hB a (B.drop (a.length + 5)) ?_ ha
      have e : (B ++ l ++ x).take (a.length + 5) = (a ++ HOST ++ c).take (a.length + 5) := by rw [he]
      rw [List.append_assoc, List.take_append_of_le_length h5] at e
      have e2 : (a ++ HOST ++ c).take (a.length + 5) = a ++ HOST := by
        rw [List.take_append_of_le_length (by simp [HOST])]
        rw [List.take_of_length_le (by simp [HOST])]
      rw [e2] at e
      rw [← e, List.take_append_drop]
    · -- the last byte of `B`, a newline, would be inside `Host:`
      rcases hs with rfl | ⟨B', rfl⟩
      · simp at h
      · simp only [List.length_append, List.length_singleton] at h h5 hlen
        have h1 := hget B'.length
        have e1 : (B' ++ [10] ++ l ++ x)[B'.length]? = some (10 : UInt8) := by
          simp [List.append_assoc]
        rw [e1] at h1
        have h2 := hH (B'.length - a.length) (by omega)
        rw [show a.length + (B'.length - a.length) = B'.length by omega, ← h1] at h2
        exact hHne _ (by omega) h2.symm
  · -- the occurrence starts the line `l`
    have hcut : l ++ x = HOST ++ c := by
      rw [List.append_assoc, List.append_assoc] at he
      exact (List.append_inj he h.symm).2
    by_cases h5 : 5 ≤ l.length
    · refine hp ⟨l.drop 5, ?_⟩
      have e : (l ++ x).take 5 = (HOST ++ c).take 5 := by rw [hcut]
      rw [List.take_append_of_le_length h5] at e
      have : (HOST ++ c).take 5 = HOST := by simp [HOST]
      rw [this] at e
      rw [← e, List.take_append_drop]
    · rcases hx with rfl | rfl
      · have := congrArg List.length hcut
        simp [HOST] at this
        omega
      · have e1 : (l ++ [10])[l.length]? = some (10 : UInt8) := by simp
        rw [hcut, List.getElem?_append_left (by simp [HOST]; omega)] at e1
        exact hHne _ (by omega) e1
  · -- `a` ends inside `l ++ x`
    rcases ha with rfl | ⟨a', rfl⟩
    · simp at h
    · simp only [List.length_append, List.length_singleton] at h hlen
      have e1 : ((a' ++ [10]) ++ HOST ++ c)[a'.length]? = some (10 : UInt8) := by
        simp [List.append_assoc]
      rw [← he] at e1
      rw [List.append_assoc, List.getElem?_append_right (by omega),
        List.getElem?_append_left (by omega)] at e1
      exact hl (List.mem_of_getElem? e1)

/-- What has been received so far (`B`), related to what was written (`out`) and the state. -/
inductive R (h : Bytes) : Bytes → Bytes → St → Prop
  | start (out t : Bytes) : LineStart out → NoHostLine out → t.length < 5 →
      R h (out ++ t) out { temp := some t }
  | passing (a l : Bytes) : LineStart a → NoHostLine a → (10 : UInt8) ∉ l →
      ¬ (∃ r, l = HOST ++ r) → ¬ (∃ r, HOST = l ++ r) →
      R h (a ++ l) (a ++ l) { temp := some [], passing := true }
  | skipping (pre v : Bytes) : LineStart pre → NoHostLine pre → (10 : UInt8) ∉ v →
      R h (pre ++ HOST ++ v) (pre ++ h) { temp := some [], skipping := true }
  | done (pre v rest : Bytes) : LineStart pre → NoHostLine pre → (10 : UInt8) ∉ v →
      R h (pre ++ HOST ++ v ++ [10] ++ rest) (pre ++ h ++ rest) { temp := none }

theorem loop_spec (h : Bytes) (fuel : Nat) (B p : Bytes) (hf : p.length < fuel) (hs : LineStart B)
    (hn : NoHostLine B) :
    R h (B ++ p) (B ++ (loop h fuel p).1) (loop h fuel p).2.1 ∧ (loop h fuel p).2.2 = p.length := by
  induction fuel generalizing B p with
  | zero => omega
  | succ fuel ih =>
    simp only [loop]
    by_cases hp : p = []
    · subst hp
      simp only [if_true, List.append_nil, List.length_nil, and_true]
      have := R.start (h := h) B [] hs hn (by simp)
      simpa using this
    · simp only [hp, if_false]
      cases hv : isGoodToWrite p with
      | good =>
        simp only
        obtain ⟨g1, g2⟩ := verdict_good hv
        cases hc : cutLine p with
        | none =>
          simp only [and_true]
          exact R.passing B p hs hn (cutLine_none.1 hc) g1 g2
        | some x =>
          obtain ⟨l, r⟩ := x
          simp only
          obtain ⟨l', rfl, e2, rfl⟩ := cutLine_some hc
          have hs' : LineStart (B ++ (l' ++ [10])) := Or.inr ⟨B ++ l', by simp⟩
          have hn' : NoHostLine (B ++ (l' ++ [10])) := by
            rw [← List.append_assoc]
            refine noHost_line hn hs e2 (Or.inr rfl) ?_
            rintro ⟨r', rfl⟩
            exact g1 ⟨r' ++ [10] ++ r, by simp⟩
          obtain ⟨i1, i2⟩ := ih (B ++ (l' ++ [10])) r (by simp at hf; omega) hs' hn'
          refine ⟨?_, by rw [i2]; simp; omega⟩
          simpa [List.append_assoc] using i1
      | unsure =>
        simp only [List.append_nil, and_true]
        exact R.start B p hs hn (verdict_unsure hv)
      | replace =>
        simp only
        obtain ⟨r, rfl⟩ := verdict_replace hv
        cases hc : cutLine (HOST ++ r) with
        | none =>
          simp only [and_true]
          have := cutLine_none.1 hc
          simp at this
          rw [← List.append_assoc]
          exact R.skipping B r hs hn this.2
        | some x =>
          obtain ⟨l, rest⟩ := x
          simp only
          obtain ⟨l', rfl, e2, e3⟩ := cutLine_some hc
          refine ⟨?_, by rw [e3]; simp; omega⟩
          -- HOST has no newline, so it is a prefix of the line
          have hle : 5 ≤ l'.length := by
            refine Nat.le_of_not_lt fun hlt => ?_
            have e1 : (l' ++ [10] ++ rest)[l'.length]? = some (10 : UInt8) := by simp
            rw [← e3, List.getElem?_append_left (by simp [HOST]; omega)] at e1
            exact host_no_nl (List.mem_of_getElem? e1)
          have hpre : l' = HOST ++ l'.drop 5 := by
            have e : (l' ++ [10] ++ rest).take 5 = (HOST ++ r).take 5 := by rw [← e3]
            rw [List.append_assoc, List.take_append_of_le_length hle] at e
            have : (HOST ++ r).take 5 = HOST := by simp [HOST]
            rw [this] at e
            rw [← e, List.take_append_drop]
          have hv' : (10 : UInt8) ∉ l'.drop 5 := fun hm => e2 (List.mem_of_mem_drop hm)
          have := R.done (h := h) B (l'.drop 5) rest hs hn hv'
          rw [e3]
          rw [hpre]
          simpa [List.append_assoc] using this

theorem atLine_spec (h : Bytes) (B t p : Bytes) (hs : LineStart B) (hn : NoHostLine B) :
    R h (B ++ t ++ p) (B ++ (atLine h t p).1) (atLine h t p).2.1 ∧ (atLine h t p).2.2 = p.length := by
  unfold atLine
  by_cases h5 : p.length + t.length < 5
  · simp only [h5, if_true, List.append_nil, and_true]
    rw [List.append_assoc]
    exact R.start B (t ++ p) hs hn (by simp; omega)
  · simp only [h5, if_false]
    by_cases ht : t.length > 0
    · simp only [ht, if_true, and_true]
      have := loop_spec h ((t ++ p).length + 1) B (t ++ p) (by omega) hs hn
      rw [List.append_assoc]
      exact this.1
    · have : t = [] := by
        cases t with
        | nil => rfl
        | cons => simp at ht
      subst this
      simp only [List.length_nil, gt_iff_lt, Nat.lt_irrefl, if_false, List.append_nil]
      exact loop_spec h (p.length + 1) B p (by omega) hs hn

theorem write_spec (h : Bytes) {B out : Bytes} {s : St} (p : Bytes) (hr : R h B out s) :
    R h (B ++ p) (out ++ (write h s p).1) (write h s p).2.1 ∧ (write h s p).2.2 = p.length := by
  cases hr with
  | start out t hs hn hl =>
    simp only [write]
    exact atLine_spec h out t p hs hn
  | done pre v rest hs hn hv =>
    simp only [write, and_true]
    have := R.done (h := h) pre v (rest ++ p) hs hn hv
    simpa [List.append_assoc] using this
  | skipping pre v hs hn hv =>
    simp only [write, if_true]
    cases hc : cutLine p with
    | none =>
      simp only [List.append_nil, and_true]
      have := R.skipping (h := h) pre (v ++ p) hs hn (by
        simp only [List.mem_append, not_or]; exact ⟨hv, cutLine_none.1 hc⟩)
      simpa [List.append_assoc] using this
    | some x =>
      obtain ⟨l, r⟩ := x
      obtain ⟨l', rfl, e2, rfl⟩ := cutLine_some hc
      simp only
      have hv' : (10 : UInt8) ∉ v ++ l' := by simp only [List.mem_append, not_or]; exact ⟨hv, e2⟩
      by_cases hle : (l' ++ [10] ++ r).length ≤ (l' ++ [10]).length
      · simp only [hle, if_true, List.append_nil, and_true]
        have : r = [] := by
          cases r with
          | nil => rfl
          | cons => simp at hle
        subst this
        have := R.done (h := h) pre (v ++ l') [] hs hn hv'
        simpa [List.append_assoc] using this
      · simp only [hle, if_false]
        refine ⟨?_, by simp; omega⟩
        have := R.done (h := h) pre (v ++ l') r hs hn hv'
        simpa [List.append_assoc] using this
  | passing a l hs hn hl g1 g2 =>
    simp only [write, if_true]
    have hne : ∀ q, ¬ ∃ r, l ++ q = HOST ++ r := by
      rintro q ⟨r, hr⟩
      rcases List.append_eq_append_iff.1 hr with ⟨x, h1, h2⟩ | ⟨x, h1, h2⟩
      · exact g2 ⟨x, h1⟩
      · exact g1 ⟨x, h1⟩
    cases hc : cutLine p with
    | none =>
      simp only [Bool.false_eq_true, if_false, and_true]
      have := R.passing (h := h) a (l ++ p) hs hn (by
        simp only [List.mem_append, not_or]; exact ⟨hl, cutLine_none.1 hc⟩) (hne p) (by
        rintro ⟨r, hr⟩
        exact g2 ⟨p ++ r, by rw [hr]; simp⟩)
      simpa [List.append_assoc] using this
    | some x =>
      obtain ⟨l1, r⟩ := x
      obtain ⟨l', rfl, e2, rfl⟩ := cutLine_some hc
      simp only [Bool.false_eq_true, if_false]
      have hs' : LineStart (a ++ l ++ (l' ++ [10])) := Or.inr ⟨a ++ l ++ l', by simp⟩
      have hn' : NoHostLine (a ++ l ++ (l' ++ [10])) := by
        have := noHost_line (x := [10]) hn hs (l := l ++ l') (by
          simp only [List.mem_append, not_or]; exact ⟨hl, e2⟩) (Or.inr rfl) (hne l')
        simpa [List.append_assoc] using this
      by_cases hle : r.length ≤ 0
      · simp only [hle, if_true]
        have : r = [] := List.length_eq_zero_iff.1 (by omega)
        subst this
        refine ⟨?_, by simp⟩
        have := R.start (h := h) (a ++ l ++ (l' ++ [10])) [] hs' hn' (by simp)
        simpa [List.append_assoc] using this
      · simp only [hle, if_false]
        obtain ⟨i1, i2⟩ := atLine_spec h (a ++ l ++ (l' ++ [10])) [] r hs' hn'
        refine ⟨?_, by rw [i2]; simp; omega⟩
        simpa [List.append_assoc] using i1

theorem writes_spec (h : Bytes) (ps : List Bytes) {B out : Bytes} {s : St} (hr : R h B out s) :
    R h (B ++ ps.flatten) (out ++ (writes h s ps).1) (writes h s ps).2.1 ∧
    (writes h s ps).2.2 = ps.map List.length := by
  induction ps generalizing B out s with
  | nil => simpa [writes] using hr
  | cons p ps ih =>
    simp only [writes]
    obtain ⟨a1, a2⟩ := write_spec h p hr
    obtain ⟨b1, b2⟩ := ih a1
    refine ⟨?_, by simp [a2, b2]⟩
    simpa [List.append_assoc] using b1

theorem start_R (h : Bytes) : R h [] [] { temp := some [] } := by
  have := R.start (h := h) [] [] (Or.inl rfl) (by
    intro a c he
    have := congrArg List.length he
    simp [HOST] at this) (by simp)
  simpa using this

/-- Two decompositions at a first Host line agree. -/
theorem first_host_unique {pre pre' c c' : Bytes} (hs : LineStart pre) (hn : NoHostLine pre)
    (hs' : LineStart pre') (hn' : NoHostLine pre') (he : pre ++ HOST ++ c = pre' ++ HOST ++ c') :
    pre = pre' ∧ c = c' := by
  have key : ∀ {pre pre' c c' : Bytes}, LineStart pre → LineStart pre' → NoHostLine pre' →
      pre ++ HOST ++ c = pre' ++ HOST ++ c' → ¬ pre.length < pre'.length := by
    intro pre pre' c c' hs hs' hn' he hlt
    by_cases h5 : pre.length + 5 ≤ pre'.length
    · refine hn' pre (pre'.drop (pre.length + 5)) ?_ hs
      have e : (pre ++ HOST ++ c).take (pre.length + 5) = (pre' ++ HOST ++ c').take (pre.length + 5) := by rw [he]
      rw [List.take_append_of_le_length (by simp [HOST]), List.take_of_length_le (by simp [HOST]),
        List.append_assoc pre', List.take_append_of_le_length h5] at e
      rw [e, List.take_append_drop]
    · rcases hs' with rfl | ⟨q, rfl⟩
      · simp at hlt
      · simp only [List.length_append, List.length_singleton] at hlt h5
        have h1 : (pre ++ HOST ++ c)[q.length]? = (q ++ [10] ++ HOST ++ c')[q.length]? := by rw [he]
        have e1 : (q ++ [10] ++ HOST ++ c')[q.length]? = some (10 : UInt8) := by simp [List.append_assoc]
        rw [e1, List.append_assoc, List.getElem?_append_right (by omega),
          List.getElem?_append_left (by simp [HOST]; omega)] at h1
        exact host_no_nl (List.mem_of_getElem? h1)
  have hlen : pre.length = pre'.length := by
    have h1 := key hs hs' hn' he
    have h2 := key hs' hs hn he.symm
    omega
  rw [List.append_assoc, List.append_assoc] at he
  obtain ⟨h1, h2⟩ := List.append_inj he hlen
  exact ⟨h1, List.append_cancel_left h2⟩

/-! ## Theorems -/

/-- **C30 (part).**  A request whose first line starting with `Host:` is complete reaches the local
service with exactly that line replaced, whatever pieces it arrives in, and every write reports the full
length of its piece. -/
theorem host_rewritten_partial (host pre v rest : Bytes) (pieces : List Bytes) {h : Bytes} {s : St}
    (hset : setHost host = some (h, s))
    (hreq : pieces.flatten = pre ++ HOST ++ v ++ [10] ++ rest)
    (hs : LineStart pre) (hn : NoHostLine pre) (hv : (10 : UInt8) ∉ v) :
    (writes h s pieces).1 = pre ++ [72, 111, 115, 116, 58, 32] ++ host ++ [13, 10] ++ rest ∧
    (writes h s pieces).2.2 = pieces.map List.length := by
  unfold setHost at hset
  split at hset
  · simp at hset
  · simp only [Option.some.injEq, Prod.mk.injEq] at hset
    obtain ⟨rfl, rfl⟩ := hset
    obtain ⟨r, hn2⟩ := writes_spec ([72, 111, 115, 116, 58, 32] ++ host ++ [13, 10]) pieces (start_R _)
    refine ⟨?_, hn2⟩
    simp only [List.nil_append] at r
    rw [hreq] at r
    generalize hB : pre ++ HOST ++ v ++ [10] ++ rest = B at r
    generalize hO : (writes ([72, 111, 115, 116, 58, 32] ++ host ++ [13, 10]) { temp := some [] } pieces).1 = O at r ⊢
    generalize (writes ([72, 111, 115, 116, 58, 32] ++ host ++ [13, 10]) { temp := some [] } pieces).2.1 = S at r
    have hB' : B = pre ++ HOST ++ (v ++ [10] ++ rest) := by rw [← hB]; simp
    -- the cases in which no Host line was seen contradict `hB`
    have noHostB : ∀ X t : Bytes, LineStart X → NoHostLine X → t.length < 5 → B = X ++ t → False := by
      intro X t hX hnX ht he
      rw [hB'] at he
      by_cases h5 : pre.length + 5 ≤ X.length
      · refine hnX pre (X.drop (pre.length + 5)) ?_ hs
        have e : (pre ++ HOST ++ (v ++ [10] ++ rest)).take (pre.length + 5) = (X ++ t).take (pre.length + 5) := by rw [he]
        rw [List.take_append_of_le_length (by simp [HOST]), List.take_of_length_le (by simp [HOST]),
          List.take_append_of_le_length h5] at e
        rw [e, List.take_append_drop]
      · have hlen := congrArg List.length he
        simp [HOST] at hlen
        rcases hX with rfl | ⟨q, rfl⟩
        · simp at hlen
          omega
        · simp only [List.length_append, List.length_singleton] at h5 hlen
          by_cases hq : pre.length ≤ q.length
          · have h1 : (pre ++ HOST ++ (v ++ [10] ++ rest))[q.length]? = (q ++ [10] ++ t)[q.length]? := by rw [he]
            have e1 : (q ++ [10] ++ t)[q.length]? = some (10 : UInt8) := by simp [List.append_assoc]
            rw [e1, List.append_assoc, List.getElem?_append_right (by omega),
              List.getElem?_append_left (by simp [HOST]; omega)] at h1
            exact host_no_nl (List.mem_of_getElem? h1)
          · omega
    cases r with
    | start out t h1 h2 h3 => exact (noHostB O t h1 h2 h3 rfl).elim
    | passing a l h1 h2 h3 g1 g2 =>
      exfalso
      have := noHost_line (x := []) h2 h1 h3 (Or.inl rfl) g1
      simp only [List.append_nil] at this
      exact this pre _ hB' hs
    | skipping pre' v' h1 h2 h3 =>
      exfalso
      obtain ⟨_, e⟩ := first_host_unique h1 h2 hs hn hB'
      rw [e] at h3
      simp at h3
    | done pre' v' rest' h1 h2 h3 =>
      have e0 : pre' ++ HOST ++ (v' ++ [10] ++ rest') = pre ++ HOST ++ (v ++ [10] ++ rest) := by
        rw [← hB']; simp
      obtain ⟨rfl, e⟩ := first_host_unique h1 h2 hs hn e0
      have e' : v' ++ ([10] ++ rest') = v ++ ([10] ++ rest) := by simpa using e
      have : v' = v ∧ rest' = rest := by
        have aux : ∀ {x y p q : Bytes}, (10 : UInt8) ∉ x → x ++ ([10] ++ p) = y ++ ([10] ++ q) → ¬ y.length < x.length := by
          intro x y p q hx he hlt
          have h1 : (x ++ ([10] ++ p))[y.length]? = (y ++ ([10] ++ q))[y.length]? := by rw [he]
          rw [List.getElem?_append_left hlt] at h1
          have : (y ++ ([10] ++ q))[y.length]? = some (10 : UInt8) := by simp
          rw [this] at h1
          exact hx (List.mem_of_getElem? h1)
        have hl : v'.length = v.length := by
          have := aux h3 e'
          have := aux hv e'.symm
          omega
        obtain ⟨x1, x2⟩ := List.append_inj e' hl
        refine ⟨x1, ?_⟩
        simpa using x2
      obtain ⟨rfl, rfl⟩ := this
      simp [List.append_assoc]

/-- Without a `Host:` line nothing is changed, but up to four bytes at the start of the last line stay
in the client. -/
theorem no_host_line_partial (h req : Bytes) (pieces : List Bytes)
    (hreq : pieces.flatten = req) (hn : NoHostLine req) :
    ∃ held, (writes h { temp := some [] } pieces).1 ++ held = req ∧ held.length ≤ 4 ∧
      (held ≠ [] → LineStart (writes h { temp := some [] } pieces).1) := by
  obtain ⟨r, _⟩ := writes_spec h pieces (start_R h)
  simp only [List.nil_append] at r
  rw [hreq] at r
  generalize (writes h { temp := some [] } pieces).1 = O at r ⊢
  generalize (writes h { temp := some [] } pieces).2.1 = S at r
  cases r with
  | start out t h1 h2 h3 => exact ⟨t, rfl, by omega, fun _ => h1⟩
  | passing a l h1 h2 h3 g1 g2 => exact ⟨[], by simp, by simp, by simp⟩
  | skipping pre v h1 h2 h3 => exact absurd h1 (hn pre v rfl)
  | done pre v rest h1 h2 h3 => exact absurd h1 (hn pre (v ++ [10] ++ rest) (by simp))

/-- **C30, the limit.**  A local host name is accepted exactly up to 200 bytes; the line that replaces the
request's own is `Host: <name>` and CR LF, so it always fits the pooled buffer (at most 208 bytes), and the writer
starts at the beginning of a line. -/
theorem host_limit (host : Bytes) :
    (host.length ≤ 200 → setHost host = some (ascii "Host: " ++ host ++ [13, 10], { temp := some [] }) ∧
      (ascii "Host: " ++ host ++ [13, 10]).length ≤ 208) ∧
    (200 < host.length → setHost host = none) := by
  have e : ascii "Host: " = [72, 111, 115, 116, 58, 32] := by decide
  rw [e]
  unfold setHost
  constructor
  · intro h
    rw [if_neg (by omega)]
    exact ⟨rfl, by simp; omega⟩
  · intro h; rw [if_pos (by omega)]

/-- **C30 is false for requests without a Host line**: the complete request `"A\n\r\n"` is passed on
whole when it arrives at once after a longer piece, but its last two bytes are never delivered when they
arrive on their own. -/
theorem end_of_request_withheld :
    (writes [] { temp := some [] } [[71, 69, 84, 32, 47, 10, 13, 10]]).1 = [71, 69, 84, 32, 47, 10, 13, 10] ∧
    (writes [] { temp := some [] } [[71, 69, 84, 32, 47, 10], [13, 10]]).1 = [71, 69, 84, 32, 47, 10] := by
  decide

/-- A lower-case header name (the same header to HTTP) is not rewritten. -/
theorem lower_case_host_not_rewritten :
    (writes [1] { temp := some [] } [[104, 111, 115, 116, 58, 32, 97, 13, 10]]).1 =
      [104, 111, 115, 116, 58, 32, 97, 13, 10] := by decide

/-- Non-vacuity: `GET /\nHost: b\nX` in four pieces, with host `a`. -/
example : (writes [72, 111, 115, 116, 58, 32, 97, 13, 10] { temp := some [] }
    [[71, 69, 84, 32], [47, 10, 72, 111], [115, 116, 58, 32, 98], [10, 88]]) =
    ([71, 69, 84, 32, 47, 10, 72, 111, 115, 116, 58, 32, 97, 13, 10, 88], { temp := none }, [4, 4, 5, 2]) := by
  decide

end Verif.Client.HostRewrite
