import Verif.Bufio.Props
set_option linter.unusedSimpArgs false
set_option linter.unusedVariables false
/-!
# C08: errors of the underlying reader are reported once, in order, and not lost
-/
namespace Verif.Bufio
open Verif

/-- The error of the underlying connection in a result, if there is one (`io.EOF`, `ErrBufferFull`, … are not). -/
def net : Option Err → List Nat
  | some (.other n) => [n]
  | _ => []

/-- The errors the underlying connection is going to report, in order. -/
def errsOf (src : Script) : List Nat := (src.map fun c => net c.2).flatten

/-- The connection error a call returned. -/
def outErr : Out → List Nat
  | .bytes _ e => net e
  | .count _ e => net e
  | .byte (.error e) => net (some e)
  | .byte (.ok _) => []
  | .unread e => net e

/-- Errors not yet returned to the caller. -/
def held (s : Rd) : List Nat := net s.err ++ errsOf s.src

theorem srcRead_errs (src : Script) (m : Nat) : net (srcRead src m).2.1 ++ errsOf (srcRead src m).2.2 = errsOf src := by
  unfold srcRead
  split
  · simp [net, errsOf]
  · split
    · simp [errsOf]
    · simp [net, errsOf]

theorem fillLoop_errs (i : Nat) (s : Rd) :
    (s.err = none → held (fillLoop i s) = held s) ∧ (held (fillLoop i s)).Sublist (held s) := by
  induction i generalizing s with
  | zero =>
    simp only [fillLoop, held, net, List.nil_append]
    exact ⟨fun h => by simp [h, net], List.sublist_append_right _ _⟩
  | succ i ih =>
    have hx := srcRead_errs s.src (s.cap - s.data.length)
    unfold fillLoop
    generalize srcRead s.src (s.cap - s.data.length) = q at hx ⊢
    obtain ⟨bs, e, src'⟩ := q
    dsimp only at hx ⊢
    cases e with
    | some e =>
      dsimp only
      simp only [held]
      rw [hx]
      exact ⟨fun h => by simp [h, net], List.sublist_append_right _ _⟩
    | none =>
      dsimp only
      have hx' : errsOf src' = errsOf s.src := by simpa [net] using hx
      split
      · simp only [held, hx']; exact ⟨fun _ => trivial, List.Sublist.refl _⟩
      · obtain ⟨i1, i2⟩ := ih { s with data := s.data ++ bs, src := src' }
        have hh : held { s with data := s.data ++ bs, src := src' } = held s := by simp only [held, hx']
        rw [hh] at i1 i2
        exact ⟨i1, i2⟩

theorem fill_errs {s s' : Rd} (h : fill s = some s') :
    (s.err = none → held s' = held s) ∧ (held s').Sublist (held s) := by
  unfold fill at h
  dsimp only at h
  split at h
  · simp at h
  · simp only [Option.some.injEq] at h
    subst h
    exact fillLoop_errs 100 { s with r := 0 }

theorem peekLoop_errs (f n : Nat) {s s' : Rd} (h : peekLoop f n s = some s') : held s' = held s := by
  induction f generalizing s with
  | zero => simp [peekLoop] at h
  | succ f ih =>
    unfold peekLoop at h
    split at h
    · rename_i hc
      split at h
      · simp at h
      · rename_i s1 hf
        rw [ih h, (fill_errs hf).1 hc.2.2]
    · simp at h; rw [h]

theorem peek_errs (n : Nat) {s s' : Rd} {b : Bytes} {e : Option Err} (h : peek n s = some ((b, e), s')) :
    net e ++ held s' = held s := by
  unfold peek at h
  split at h
  · simp at h
  · rename_i s1 hp
    have h1 : held s1 = held { s with last := none } := peekLoop_errs _ _ hp
    have h1 : held s1 = held s := h1
    split at h
    · simp only [Option.some.injEq, Prod.mk.injEq] at h
      obtain ⟨⟨rfl, rfl⟩, rfl⟩ := h
      simpa [net] using h1
    · split at h
      · simp only [readErr, Option.some.injEq, Prod.mk.injEq] at h
        obtain ⟨⟨rfl, rfl⟩, rfl⟩ := h
        rw [← h1]
        simp only [held, net, List.nil_append]
        cases s1.err <;> simp [net]
      · simp only [Option.some.injEq, Prod.mk.injEq] at h
        obtain ⟨⟨rfl, rfl⟩, rfl⟩ := h
        simpa [net] using h1

theorem discardLoop_errs (f n remain k : Nat) {s s' : Rd} {e : Option Err}
    (h : discardLoop f n remain s = some ((k, e), s')) : (net e ++ held s').Sublist (held s) := by
  induction f generalizing s remain with
  | zero => simp [discardLoop] at h
  | succ f ih =>
    unfold discardLoop at h
    split at h
    · simp at h
    · rename_i s1 hs1
      have h1 : (held s1).Sublist (held s) := by
        split at hs1
        · exact (fill_errs hs1).2
        · simp at hs1; subst hs1; exact List.Sublist.refl _
      dsimp only at h
      split at h
      · simp only [Option.some.injEq, Prod.mk.injEq] at h
        obtain ⟨⟨rfl, rfl⟩, rfl⟩ := h
        simpa [net, held] using h1
      · split at h
        · simp only [readErr, Option.some.injEq, Prod.mk.injEq] at h
          obtain ⟨⟨rfl, rfl⟩, rfl⟩ := h
          simpa [net, held] using h1
        · exact (ih _ h).trans h1

theorem read_errs (m : Nat) (s : Rd) : net (read m s).1.2 ++ held (read m s).2 = held s := by
  unfold read
  split
  · split
    · simp [net]
    · simp [held, net]
  · split
    · split
      · simp [held, net]
      · rename_i he
        have he' : s.err = none := by simpa using he
        split
        · have hx := srcRead_errs s.src m
          generalize srcRead s.src m = q at hx ⊢
          obtain ⟨bs, e, src'⟩ := q
          simp only [held, he', net, List.nil_append] at hx ⊢
          exact hx
        · have hx := srcRead_errs s.src s.cap
          generalize srcRead s.src s.cap = q at hx ⊢
          obtain ⟨bs, e, src'⟩ := q
          dsimp only at hx ⊢
          split
          · simp only [held, he', net, List.nil_append]; exact hx
          · simp only [held, he', net, List.nil_append]; exact hx
    · simp [held, net]

theorem readByteLoop_errs (f : Nat) {s s' : Rd} {r : Except Err UInt8} (h : readByteLoop f s = some (r, s')) :
    outErr (.byte r) ++ held s' = held s := by
  induction f generalizing s with
  | zero => simp [readByteLoop] at h
  | succ f ih =>
    unfold readByteLoop at h
    split at h
    · simp only [Option.some.injEq, Prod.mk.injEq] at h
      obtain ⟨rfl, rfl⟩ := h
      simp [outErr, held]
    · split at h
      · rename_i e he
        simp only [Option.some.injEq, Prod.mk.injEq] at h
        obtain ⟨rfl, rfl⟩ := h
        simp [outErr, held, he, net]
      · rename_i he
        split at h
        · simp at h
        · rename_i s1 hf
          rw [ih h, (fill_errs hf).1 he]

theorem readSliceLoop_errs (f : Nat) (d : UInt8) (st : Nat) {s s' : Rd} {b : Bytes} {e : Option Err}
    (h : readSliceLoop f d st s = some ((b, e), s')) : net e ++ held s' = held s := by
  induction f generalizing s st with
  | zero => simp [readSliceLoop] at h
  | succ f ih =>
    unfold readSliceLoop at h
    split at h
    · simp only [Option.some.injEq, Prod.mk.injEq] at h
      obtain ⟨⟨rfl, rfl⟩, rfl⟩ := h
      simp [held, net]
    · split at h
      · rename_i e' he
        simp only [Option.some.injEq, Prod.mk.injEq] at h
        obtain ⟨⟨rfl, rfl⟩, rfl⟩ := h
        simp [held, net, he]
      · rename_i he
        split at h
        · simp only [Option.some.injEq, Prod.mk.injEq] at h
          obtain ⟨⟨rfl, rfl⟩, rfl⟩ := h
          simp [held, net]
        · split at h
          · simp at h
          · rename_i s1 hf
            rw [ih _ h, (fill_errs hf).1 he]

def isDiscard : Op → Bool
  | .discard _ => true
  | _ => false

theorem step_errs {op : Op} {s s' : Rd} {o : Out} (h : step op s = some (o, s')) :
    (isDiscard op = false → outErr o ++ held s' = held s) ∧ (outErr o ++ held s').Sublist (held s) := by
  have both : ∀ {a b : List Nat}, a = b → (isDiscard op = false → a = b) ∧ a.Sublist b := by
    rintro a b rfl; exact ⟨fun _ => rfl, List.Sublist.refl _⟩
  cases op with
  | peek n =>
    simp only [step, Option.map_eq_some_iff] at h
    obtain ⟨⟨⟨b, e⟩, s1⟩, h1, h2⟩ := h
    simp only [Prod.mk.injEq] at h2
    obtain ⟨rfl, rfl⟩ := h2
    exact both (peek_errs n h1)
  | discard n =>
    simp only [step, Option.map_eq_some_iff] at h
    obtain ⟨⟨⟨b, e⟩, s1⟩, h1, h2⟩ := h
    simp only [Prod.mk.injEq] at h2
    obtain ⟨rfl, rfl⟩ := h2
    refine ⟨by simp [isDiscard], ?_⟩
    unfold discard at h1
    split at h1
    · simp only [Option.some.injEq, Prod.mk.injEq] at h1
      obtain ⟨⟨rfl, rfl⟩, rfl⟩ := h1
      simp [outErr, net]
    · exact discardLoop_errs _ _ _ _ h1
  | read m =>
    simp only [step, Option.some.injEq, Prod.mk.injEq] at h
    obtain ⟨rfl, rfl⟩ := h
    exact both (read_errs m s)
  | readByte =>
    simp only [step, Option.map_eq_some_iff] at h
    obtain ⟨⟨r, s1⟩, h1, h2⟩ := h
    simp only [Prod.mk.injEq] at h2
    obtain ⟨rfl, rfl⟩ := h2
    exact both (readByteLoop_errs 2 h1)
  | unreadByte =>
    simp only [step, Option.some.injEq, Prod.mk.injEq] at h
    obtain ⟨rfl, rfl⟩ := h
    apply both
    unfold unreadByte
    split
    · simp [outErr, net]
    · split <;> simp [outErr, net, held]
  | readSlice d =>
    simp only [step, readSlice, Option.map_eq_some_iff] at h
    obtain ⟨⟨⟨b, e⟩, s1⟩, ⟨⟨⟨b', e'⟩, s2⟩, h1, h2⟩, h3⟩ := h
    simp only [Prod.mk.injEq] at h2 h3
    obtain ⟨⟨rfl, rfl⟩, rfl⟩ := h2
    obtain ⟨rfl, rfl⟩ := h3
    apply both
    rw [← readSliceLoop_errs _ _ _ h1]
    unfold setLast
    split <;> rfl
  | buffered =>
    simp only [step, Option.some.injEq, Prod.mk.injEq] at h
    obtain ⟨rfl, rfl⟩ := h
    exact both (by simp [outErr, net])

/-- **C08, errors.**  For every stream, chunking, schedule of connection errors and sequence of calls: the connection
errors returned by the calls, followed by those still to come, are the connection's errors in order, each at most
once and none invented; and as long as `Discard` is not called, none is lost. -/
theorem errors_reported (cap : Nat) (src : Script) (ops : List Op) (os : List Out) (s' : Rd)
    (h : run ops (Rd.new cap src) = some (os, s')) :
    ((os.map outErr).flatten ++ held s').Sublist (errsOf src) ∧
    ((∀ op ∈ ops, ∀ n, op ≠ .discard n) → (os.map outErr).flatten ++ held s' = errsOf src) := by
  have key : ∀ (ops : List Op) (s : Rd) (os : List Out), run ops s = some (os, s') →
      ((os.map outErr).flatten ++ held s').Sublist (held s) ∧
      ((∀ op ∈ ops, ∀ n, op ≠ .discard n) → (os.map outErr).flatten ++ held s' = held s) := by
    intro ops
    induction ops with
    | nil =>
      intro s os h
      simp only [run, Option.some.injEq, Prod.mk.injEq] at h
      obtain ⟨rfl, rfl⟩ := h
      simp
    | cons op ops ih =>
      intro s os h
      unfold run at h
      split at h
      · simp at h
      · rename_i o s1 hs
        split at h
        · simp at h
        · rename_i os1 s2 hr
          simp only [Option.some.injEq, Prod.mk.injEq] at h
          obtain ⟨rfl, rfl⟩ := h
          obtain ⟨i1, i2⟩ := ih s1 os1 hr
          obtain ⟨j1, j2⟩ := step_errs hs
          simp only [List.map_cons, List.flatten_cons, List.append_assoc]
          refine ⟨((List.Sublist.refl _).append i1).trans j2, ?_⟩
          intro hn
          rw [i2 (fun op' hm => hn op' (List.mem_cons_of_mem _ hm))]
          apply j1
          cases op with
          | discard n => exact absurd rfl (hn (.discard n) (List.mem_cons_self ..) n)
          | _ => rfl
  exact key ops (Rd.new cap src) os h

/-- Three calls, two connection errors: both are reported after the data that came with them. -/
example : run [.read 4, .read 4, .readByte, .readByte] (Rd.new 16 [([1, 2], some (.other 7)), ([], some (.other 8)), ([3], none)]) =
    some ([.bytes [1, 2] none, .bytes [] (some (.other 7)), .byte (.error (.other 8)), .byte (.ok 3)],
      ⟨16, 1, [], none, some 3, []⟩) := by decide

/-- `Discard` on an empty buffer with a pending error reads on and can replace the error by a later one. -/
theorem discard_loses_error :
    run [.read 2, .discard 1] (Rd.new 16 [([1, 2], some (.other 7)), ([], some (.other 8))]) =
      some ([.bytes [1, 2] none, .count 0 (some (.other 8))], ⟨16, 0, [], none, some 2, []⟩) := by decide

end Verif.Bufio
