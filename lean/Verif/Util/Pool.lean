import Verif.Common
/-!
# C122: pooled buffers (libcs/pool/pool.go:29-34) and their users

Every connection borrows a 4096-byte buffer from one common pool, fills it, writes (parts of) it to a socket and
gives it back. This file has a byte-level memory in which any number of users run interleaved, a pool that
hands out any free buffer (or a new one; the garbage collector may drop free ones), and the users of the pool in the
code as programs over that memory.

A user keeps its pointer when it gives the buffer back: nothing in Go stops it from going on using it.

Not modelled: that a copy is not atomic (a `fill` or `use` is one step; the findings need no finer grain),
writes that fail.
-/
set_option linter.unusedSimpArgs false
set_option linter.unusedVariables false
set_option linter.unusedSectionVars false
namespace Verif.Pool
open Verif

/-- What a user does. `send` is a write of bytes that are not in the pooled buffer. -/
inductive Op where
  /-- `pool.BytesPool.Get()` -/
  | get
  /-- `copy(buf[off:], d)`, or a read of `d` into `buf[off:]` -/
  | fill (off : Nat) (d : Bytes)
  /-- a write of `buf[off:off+len]` to a connection (or another use of these bytes) -/
  | use (off len : Nat)
  /-- `pool.BytesPool.Put(buf)` -/
  | put
  | send (d : Bytes)
deriving DecidableEq, Repr

abbrev Mem := Nat → UInt8

/-- `copy(m[off:], d)`. -/
def fillMem (m : Mem) (off : Nat) (d : Bytes) : Mem :=
  fun a => if off ≤ a ∧ a < off + d.length then d.getD (a - off) 0 else m a

/-- `m[off:off+len]`. -/
def readMem (m : Mem) (off len : Nat) : Bytes := (List.range len).map fun i => m (off + i)

/-- A user: its pointer, what it has still to do, what it has written. -/
structure User where
  ptr : Option Nat := none
  prog : List Op := []
  out : List Bytes := []

structure St where
  mem : Nat → Mem
  /-- the buffers in the pool -/
  free : List Nat
  /-- the number of the next new buffer -/
  next : Nat
  user : Nat → User

def upd {α : Type} (f : Nat → α) (v : Nat) (x : α) : Nat → α := fun w => if w = v then x else f w

/-- What happens next: user `i` does its next operation (for `get`, `k` says which free buffer it is given: the
`k`-th one, or a new one if there is no such), or the pool forgets a free buffer. -/
inductive Ev where
  | act (i k : Nat)
  | drop (k : Nat)
deriving DecidableEq, Repr

/-- One operation. `none`: not possible (nothing left to do, or no buffer yet: a nil slice). -/
def step (s : St) : Ev → Option St
  | .drop k => some { s with free := s.free.eraseIdx k }
  | .act i k =>
    match (s.user i).prog with
    | [] => none
    | .get :: r =>
      match s.free[k]? with
      | some b => some { s with free := s.free.eraseIdx k, user := upd s.user i { s.user i with ptr := some b, prog := r } }
      | none => some { s with next := s.next + 1, mem := upd s.mem s.next (fun _ => 0),
                              user := upd s.user i { s.user i with ptr := some s.next, prog := r } }
    | .send d :: r => some { s with user := upd s.user i { s.user i with prog := r, out := (s.user i).out ++ [d] } }
    | .fill off d :: r =>
      match (s.user i).ptr with
      | none => none
      | some b => some { s with mem := upd s.mem b (fillMem (s.mem b) off d), user := upd s.user i { s.user i with prog := r } }
    | .use off len :: r =>
      match (s.user i).ptr with
      | none => none
      | some b =>
        some { s with
          user := upd s.user i { s.user i with prog := r, out := (s.user i).out ++ [readMem (s.mem b) off len] } }
    | .put :: r =>
      match (s.user i).ptr with
      | none => none
      | some b => some { s with free := b :: s.free, user := upd s.user i { s.user i with prog := r } }

def run (s : St) : List Ev → Option St
  | [] => some s
  | e :: r =>
    match step s e with
    | none => none
    | some s' => run s' r

/-! ## Specification -/

/-- What the user writes if nobody else touches its buffer (`m`: the contents of the buffer). -/
def own (m : Mem) : List Op → List Bytes
  | [] => []
  | .get :: r => own (fun _ => 0) r
  | .fill off d :: r => own (fillMem m off d) r
  | .use off len :: r => readMem m off len :: own m r
  | .put :: r => own m r
  | .send d :: r => d :: own m r

/-- The rules: a buffer is used only between `get` and `put`, one at a time, and only what was put into it
since `get` is used. `held`: the user has a buffer; `kn`: the addresses it has filled. -/
def Good : Bool → (Nat → Bool) → List Op → Prop
  | _, _, [] => True
  | held, kn, .get :: r => held = false ∧ Good true (fun _ => false) r
  | held, kn, .fill off d :: r => held = true ∧ Good held (fun a => kn a || (decide (off ≤ a) && decide (a < off + d.length))) r
  | held, kn, .use off len :: r => held = true ∧ (∀ a, off ≤ a → a < off + len → kn a = true) ∧ Good held kn r
  | held, kn, .put :: r => held = true ∧ Good false (fun _ => false) r
  | held, kn, .send _ :: r => Good held kn r

def Rules (p : List Op) : Prop := Good false (fun _ => false) p

/-- Nobody has started; the pool may contain used buffers with any contents. -/
structure Fresh (s : St) : Prop where
  nodup : s.free.Nodup
  old : ∀ b ∈ s.free, b < s.next
  start : ∀ i, (s.user i).ptr = none ∧ (s.user i).out = []

/-! ## Memory lemmas -/

theorem upd_self {α : Type} (f : Nat → α) (v : Nat) (x : α) : upd f v x v = x := by simp [upd]
theorem upd_ne {α : Type} (f : Nat → α) {v w : Nat} (x : α) (h : w ≠ v) : upd f v x w = f w := by simp [upd, h]

theorem readMem_congr {m m' : Mem} {off len : Nat} (h : ∀ a, off ≤ a → a < off + len → m a = m' a) :
    readMem m off len = readMem m' off len := by
  unfold readMem
  refine List.map_congr_left ?_
  intro i hi
  have := List.mem_range.1 hi
  exact h _ (by omega) (by omega)

theorem readMem_zero (m : Mem) (off : Nat) : readMem m off 0 = [] := rfl

theorem length_readMem (m : Mem) (off len : Nat) : (readMem m off len).length = len := by simp [readMem]

theorem readMem_fill (m : Mem) (off : Nat) (d : Bytes) : readMem (fillMem m off d) off d.length = d := by
  refine List.ext_getElem (by simp [length_readMem]) ?_
  intro i h1 h2
  have hi : i < d.length := h2
  simp only [readMem, List.getElem_map, List.getElem_range, fillMem]
  rw [if_pos (by omega)]
  have : off + i - off = i := by omega
  rw [this, List.getD_eq_getElem?_getD, List.getElem?_eq_getElem hi]; rfl

/-- a part of what was filled -/
theorem readMem_fill_part (m : Mem) (off : Nat) (a b c : Bytes) :
    readMem (fillMem m off (a ++ b ++ c)) (off + a.length) b.length = b := by
  refine List.ext_getElem (by simp [length_readMem]) ?_
  intro i h1 h2
  have hi : i < b.length := h2
  simp only [readMem, List.getElem_map, List.getElem_range, fillMem]
  rw [if_pos (by simp; omega)]
  have : off + a.length + i - off = a.length + i := by omega
  rw [this, List.getD_eq_getElem?_getD]
  have h3 : (a ++ b ++ c)[a.length + i]? = b[i]? := by
    rw [List.append_assoc, List.getElem?_append_right (by omega), Nat.add_sub_cancel_left,
      List.getElem?_append_left hi]
  rw [h3, List.getElem?_eq_getElem hi]; rfl

theorem readMem_append (m : Mem) (off a b : Nat) : readMem m off (a + b) = readMem m off a ++ readMem m (off + a) b := by
  unfold readMem
  rw [List.range_add, List.map_append, List.map_map]
  congr 1
  refine List.map_congr_left ?_
  intro i _
  simp only [Function.comp]; congr 1; omega

theorem readMem_fill_outside (m : Mem) (off : Nat) (d : Bytes) (o l : Nat) (h : o + l ≤ off ∨ off + d.length ≤ o) :
    readMem (fillMem m off d) o l = readMem m o l := by
  refine readMem_congr ?_
  intro a h1 h2
  unfold fillMem
  rw [if_neg (by omega)]

/-- what was known before and what is added after it -/
theorem readMem_fill_after (m : Mem) (off : Nat) (t p : Bytes) (ht : readMem m off t.length = t) :
    readMem (fillMem m (off + t.length) p) off (t.length + p.length) = t ++ p := by
  rw [readMem_append, readMem_fill_outside _ _ _ _ _ (by omega), ht, readMem_fill]

/-! ## Users that obey the rules -/

/-- What holds between any two steps. -/
structure Inv (exp : Nat → List Bytes) (s : St) (held : Nat → Bool) (kn : Nat → Nat → Bool) (view : Nat → Mem) : Prop where
  nodup : s.free.Nodup
  old : ∀ b ∈ s.free, b < s.next
  own1 : ∀ i, held i = true → ∃ b, (s.user i).ptr = some b ∧ b < s.next ∧ b ∉ s.free
  alone : ∀ i j b, held i = true → held j = true → (s.user i).ptr = some b → (s.user j).ptr = some b → i = j
  good : ∀ i, Good (held i) (kn i) (s.user i).prog
  same : ∀ i b, held i = true → (s.user i).ptr = some b → ∀ a, kn i a = true → s.mem b a = view i a
  out : ∀ i, (s.user i).out ++ own (view i) (s.user i).prog = exp i

theorem mem_eraseIdx {l : List Nat} {k b : Nat} (h : b ∈ l.eraseIdx k) : b ∈ l :=
  List.mem_of_mem_eraseIdx h

theorem not_mem_eraseIdx {l : List Nat} (hn : l.Nodup) {k b : Nat} (hk : l[k]? = some b) : b ∉ l.eraseIdx k := by
  induction l generalizing k with
  | nil => simp at hk
  | cons x r ih =>
    cases k with
    | zero =>
      simp only [List.getElem?_cons_zero, Option.some.injEq] at hk
      subst hk
      simpa using (List.nodup_cons.1 hn).1
    | succ k =>
      simp only [List.getElem?_cons_succ] at hk
      have hmem : b ∈ r := List.mem_of_getElem? hk
      simp only [List.eraseIdx_cons_succ, List.mem_cons, not_or]
      exact ⟨fun e => (List.nodup_cons.1 hn).1 (e ▸ hmem), ih (List.nodup_cons.1 hn).2 hk⟩

theorem inv_step {exp : Nat → List Bytes} {s s' : St} {held kn view} (h : Inv exp s held kn view) (e : Ev)
    (hs : step s e = some s') : ∃ held' kn' view', Inv exp s' held' kn' view' := by
  cases e with
  | drop k =>
    simp only [step, Option.some.injEq] at hs; subst hs
    refine ⟨held, kn, view, ⟨h.nodup.eraseIdx k, fun b hb => h.old b (mem_eraseIdx hb), ?_, h.alone, h.good, h.same, h.out⟩⟩
    intro i hi
    obtain ⟨b, h1, h2, h3⟩ := h.own1 i hi
    exact ⟨b, h1, h2, fun hb => h3 (mem_eraseIdx hb)⟩
  | act i k =>
    have hg := h.good i
    have ho := h.out i
    cases hp : (s.user i).prog with
    | nil => simp only [step, hp] at hs; exact absurd hs (by simp)
    | cons op r =>
      rw [hp] at hg ho
      cases op with
      | get =>
        simp only [Good] at hg
        obtain ⟨hh, hg⟩ := hg
        cases hf : s.free[k]? with
        | some b =>
          simp only [step, hp, hf, Option.some.injEq] at hs; subst hs
          have hbf : b ∈ s.free := List.mem_of_getElem? hf
          refine ⟨upd held i true, upd kn i (fun _ => false), upd view i (fun _ => 0), ⟨h.nodup.eraseIdx k,
            fun c hc => h.old c (mem_eraseIdx hc), ?_, ?_, ?_, ?_, ?_⟩⟩
          · intro j hj
            by_cases hji : j = i
            · subst hji
              exact ⟨b, by simp [upd_self], h.old b hbf, not_mem_eraseIdx h.nodup hf⟩
            · simp only [upd_ne _ _ hji] at hj ⊢
              obtain ⟨c, h1, h2, h3⟩ := h.own1 j hj
              exact ⟨c, h1, h2, fun hc => h3 (mem_eraseIdx hc)⟩
          · intro j l c hj hl hjc hlc
            by_cases hji : j = i <;> by_cases hli : l = i
            · rw [hji, hli]
            · subst hji
              simp only [upd_self, upd_ne _ _ hli, Option.some.injEq] at hjc hlc hl
              obtain ⟨c', h1, _, h3⟩ := h.own1 l hl
              rw [h1, Option.some.injEq] at hlc
              subst hlc; subst hjc; exact absurd hbf h3
            · subst hli
              simp only [upd_self, upd_ne _ _ hji, Option.some.injEq] at hjc hlc hj
              obtain ⟨c', h1, _, h3⟩ := h.own1 j hj
              rw [h1, Option.some.injEq] at hjc
              subst hlc; subst hjc; exact absurd hbf h3
            · simp only [upd_ne _ _ hji, upd_ne _ _ hli] at hj hl hjc hlc
              exact h.alone j l c hj hl hjc hlc
          · intro j
            by_cases hji : j = i
            · subst hji; simp only [upd_self]; exact hg
            · simp only [upd_ne _ _ hji]; exact h.good j
          · intro j c hj hjc a ha
            by_cases hji : j = i
            · subst hji; simp [upd_self] at ha
            · simp only [upd_ne _ _ hji] at hj hjc ha ⊢; exact h.same j c hj hjc a ha
          · intro j
            by_cases hji : j = i
            · subst hji; simp only [upd_self]; simpa only [own] using ho
            · simp only [upd_ne _ _ hji]; exact h.out j
        | none =>
          simp only [step, hp, hf, Option.some.injEq] at hs; subst hs
          refine ⟨upd held i true, upd kn i (fun _ => false), upd view i (fun _ => 0), ⟨h.nodup,
            fun c hc => Nat.lt_succ_of_lt (h.old c hc), ?_, ?_, ?_, ?_, ?_⟩⟩
          · intro j hj
            by_cases hji : j = i
            · subst hji
              exact ⟨s.next, by simp [upd_self], Nat.lt_succ_self _, fun hc => Nat.lt_irrefl _ (h.old _ hc)⟩
            · simp only [upd_ne _ _ hji] at hj ⊢
              obtain ⟨c, h1, h2, h3⟩ := h.own1 j hj
              exact ⟨c, h1, Nat.lt_succ_of_lt h2, h3⟩
          · intro j l c hj hl hjc hlc
            by_cases hji : j = i <;> by_cases hli : l = i
            · rw [hji, hli]
            · subst hji
              simp only [upd_self, upd_ne _ _ hli, Option.some.injEq] at hjc hlc hl
              obtain ⟨c', h1, h2, _⟩ := h.own1 l hl
              rw [h1, Option.some.injEq] at hlc
              omega
            · subst hli
              simp only [upd_self, upd_ne _ _ hji, Option.some.injEq] at hjc hlc hj
              obtain ⟨c', h1, h2, _⟩ := h.own1 j hj
              rw [h1, Option.some.injEq] at hjc
              omega
            · simp only [upd_ne _ _ hji, upd_ne _ _ hli] at hj hl hjc hlc
              exact h.alone j l c hj hl hjc hlc
          · intro j
            by_cases hji : j = i
            · subst hji; simp only [upd_self]; exact hg
            · simp only [upd_ne _ _ hji]; exact h.good j
          · intro j c hj hjc a ha
            by_cases hji : j = i
            · subst hji; simp [upd_self] at ha
            · simp only [upd_ne _ _ hji] at hj hjc ha ⊢
              obtain ⟨c', h1, h2, _⟩ := h.own1 j hj
              rw [h1, Option.some.injEq] at hjc
              have hcn : c ≠ s.next := by omega
              simp only [upd_ne _ _ hcn]
              exact h.same j c hj (by rw [h1, hjc]) a ha
          · intro j
            by_cases hji : j = i
            · subst hji; simp only [upd_self]; simpa only [own] using ho
            · simp only [upd_ne _ _ hji]; exact h.out j
      | send d =>
        simp only [Good] at hg
        simp only [step, hp, Option.some.injEq] at hs; subst hs
        have hptr : ∀ j, (upd s.user i { s.user i with prog := r, out := (s.user i).out ++ [d] } j).ptr = (s.user j).ptr := by
          intro j
          by_cases hji : j = i
          · subst hji; simp only [upd_self]
          · simp only [upd_ne _ _ hji]
        refine ⟨held, kn, view, ⟨h.nodup, h.old, ?_, ?_, ?_, ?_, ?_⟩⟩
        · intro j hj; simp only [hptr]; exact h.own1 j hj
        · intro j l c hj hl hjc hlc; simp only [hptr] at hjc hlc; exact h.alone j l c hj hl hjc hlc
        · intro j
          by_cases hji : j = i
          · subst hji; simp only [upd_self]; exact hg
          · simp only [upd_ne _ _ hji]; exact h.good j
        · intro j c hj hjc; simp only [hptr] at hjc; exact h.same j c hj hjc
        · intro j
          by_cases hji : j = i
          · subst hji; simp only [upd_self]; rw [← ho]; simp [own]
          · simp only [upd_ne _ _ hji]; exact h.out j
      | fill off d =>
        simp only [Good] at hg
        obtain ⟨hh, hg⟩ := hg
        obtain ⟨b, hb, hb2, hb3⟩ := h.own1 i hh
        simp only [step, hp, hb, Option.some.injEq] at hs; subst hs
        have hptr : ∀ j, (upd s.user i { ptr := some b, prog := r, out := (s.user i).out } j).ptr = (s.user j).ptr := by
          intro j
          by_cases hji : j = i
          · subst hji; simp only [upd_self, hb]
          · simp only [upd_ne _ _ hji]
        refine ⟨held, upd kn i (fun a => kn i a || (decide (off ≤ a) && decide (a < off + d.length))),
          upd view i (fillMem (view i) off d), ⟨h.nodup, h.old, ?_, ?_, ?_, ?_, ?_⟩⟩
        · intro j hj; simp only [hptr]; exact h.own1 j hj
        · intro j l c hj hl hjc hlc; simp only [hptr] at hjc hlc; exact h.alone j l c hj hl hjc hlc
        · intro j
          by_cases hji : j = i
          · subst hji; simp only [upd_self]; exact hg
          · simp only [upd_ne _ _ hji]; exact h.good j
        · intro j c hj hjc a ha
          simp only [hptr] at hjc
          by_cases hji : j = i
          · subst hji
            rw [hb, Option.some.injEq] at hjc; subst hjc
            simp only [upd_self] at ha ⊢
            unfold fillMem
            by_cases hr : off ≤ a ∧ a < off + d.length
            · rw [if_pos hr, if_pos hr]
            · rw [if_neg hr, if_neg hr]
              refine h.same j b hj hb a ?_
              have : (decide (off ≤ a) && decide (a < off + d.length)) = false := by
                rw [Bool.and_eq_false_iff]
                simp only [decide_eq_false_iff_not]
                omega
              rw [this, Bool.or_false] at ha; exact ha
          · have hcb : c ≠ b := fun e => hji (h.alone j i b hj hh (e ▸ hjc) hb)
            simp only [upd_ne _ _ hji] at ha ⊢
            simp only [upd_ne _ _ hcb]
            exact h.same j c hj hjc a ha
        · intro j
          by_cases hji : j = i
          · subst hji; simp only [upd_self]; simpa only [own] using ho
          · simp only [upd_ne _ _ hji]; exact h.out j
      | use off len =>
        simp only [Good] at hg
        obtain ⟨hh, hk, hg⟩ := hg
        obtain ⟨b, hb, hb2, hb3⟩ := h.own1 i hh
        simp only [step, hp, hb, Option.some.injEq] at hs; subst hs
        have hptr : ∀ j, (upd s.user i { ptr := some b, prog := r, out := (s.user i).out ++ [readMem (s.mem b) off len] } j).ptr = (s.user j).ptr := by
          intro j
          by_cases hji : j = i
          · subst hji; simp only [upd_self, hb]
          · simp only [upd_ne _ _ hji]
        refine ⟨held, kn, view, ⟨h.nodup, h.old, ?_, ?_, ?_, ?_, ?_⟩⟩
        · intro j hj; simp only [hptr]; exact h.own1 j hj
        · intro j l c hj hl hjc hlc; simp only [hptr] at hjc hlc; exact h.alone j l c hj hl hjc hlc
        · intro j
          by_cases hji : j = i
          · subst hji; simp only [upd_self]; exact hg
          · simp only [upd_ne _ _ hji]; exact h.good j
        · intro j c hj hjc; simp only [hptr] at hjc; exact h.same j c hj hjc
        · intro j
          by_cases hji : j = i
          · subst hji; simp only [upd_self]
            rw [← ho]
            have : readMem (s.mem b) off len = readMem (view j) off len :=
              readMem_congr (fun a h1 h2 => h.same j b hh hb a (hk a h1 h2))
            rw [this]; simp [own]
          · simp only [upd_ne _ _ hji]; exact h.out j
      | put =>
        simp only [Good] at hg
        obtain ⟨hh, hg⟩ := hg
        obtain ⟨b, hb, hb2, hb3⟩ := h.own1 i hh
        simp only [step, hp, hb, Option.some.injEq] at hs; subst hs
        refine ⟨upd held i false, upd kn i (fun _ => false), view, ⟨List.nodup_cons.2 ⟨hb3, h.nodup⟩, ?_, ?_, ?_, ?_, ?_, ?_⟩⟩
        · intro c hc
          rcases List.mem_cons.1 hc with rfl | hc
          · exact hb2
          · exact h.old c hc
        · intro j hj
          by_cases hji : j = i
          · subst hji; simp [upd_self] at hj
          · simp only [upd_ne _ _ hji] at hj ⊢
            obtain ⟨c, h1, h2, h3⟩ := h.own1 j hj
            refine ⟨c, h1, h2, ?_⟩
            intro hc
            rcases List.mem_cons.1 hc with rfl | hc
            · exact hji (h.alone j i c hj hh h1 hb)
            · exact h3 hc
        · intro j l c hj hl hjc hlc
          by_cases hji : j = i
          · subst hji; simp [upd_self] at hj
          · by_cases hli : l = i
            · subst hli; simp [upd_self] at hl
            · simp only [upd_ne _ _ hji, upd_ne _ _ hli] at hj hl hjc hlc
              exact h.alone j l c hj hl hjc hlc
        · intro j
          by_cases hji : j = i
          · subst hji; simp only [upd_self]; exact hg
          · simp only [upd_ne _ _ hji]; exact h.good j
        · intro j c hj hjc a ha
          by_cases hji : j = i
          · subst hji; simp [upd_self] at hj
          · simp only [upd_ne _ _ hji] at hj hjc ha ⊢; exact h.same j c hj hjc a ha
        · intro j
          by_cases hji : j = i
          · subst hji; simp only [upd_self]; simpa only [own] using ho
          · simp only [upd_ne _ _ hji]; exact h.out j

/-- C122 (the rules suffice): any number of users that obey the rules, run interleaved in any way, with a pool
that hands out whichever free buffer it likes, with whatever is still in it: each user writes exactly
what it would write alone. At any moment its output is a beginning of that, and when it is done all of it. -/
theorem own_bytes {s s' : St} (h0 : Fresh s) (hr : ∀ i, Rules (s.user i).prog) {evs : List Ev}
    (h : run s evs = some s') (i : Nat) :
    (s'.user i).out <+: own (fun _ => 0) (s.user i).prog ∧
      ((s'.user i).prog = [] → (s'.user i).out = own (fun _ => 0) (s.user i).prog) := by
  have key : ∀ (evs : List Ev) (a : St) held kn view,
      Inv (fun i => own (fun _ => 0) (s.user i).prog) a held kn view → run a evs = some s' →
      ∃ held kn view, Inv (fun i => own (fun _ => 0) (s.user i).prog) s' held kn view := by
    intro evs
    induction evs with
    | nil =>
      intro a held kn view hi ha
      simp only [run, Option.some.injEq] at ha
      subst ha; exact ⟨_, _, _, hi⟩
    | cons e r ih =>
      intro a held kn view hi ha
      simp only [run] at ha
      cases hs : step a e with
      | none => rw [hs] at ha; simp at ha
      | some a' =>
        rw [hs] at ha
        obtain ⟨_, _, _, hi'⟩ := inv_step hi e hs
        exact ih a' _ _ _ hi' ha
  have hinit : Inv (fun i => own (fun _ => 0) (s.user i).prog) s (fun _ => false) (fun _ _ => false) (fun _ _ => 0) :=
    ⟨h0.nodup, h0.old, fun _ h => absurd h (by simp), fun _ _ _ h => absurd h (by simp), fun i => hr i,
      fun _ _ h => absurd h (by simp), fun i => by rw [(h0.start i).2]; rfl⟩
  obtain ⟨held, kn, view, hi⟩ := key evs s _ _ _ hinit h
  have ho := hi.out i
  refine ⟨?_, ?_⟩
  · rw [← ho]; exact List.prefix_append _ _
  · intro hd
    rw [hd] at ho
    simpa [own] using ho

/-! ## The rules are necessary -/

theorem run_cons (s : St) (e : Ev) (r : List Ev) :
    run s (e :: r) = match step s e with | none => none | some s' => run s' r := rfl

theorem run_append (a b : List Ev) (s : St) :
    run s (a ++ b) = match run s a with | none => none | some s' => run s' b := by
  induction a generalizing s with
  | nil => rfl
  | cons e r ih =>
    rw [List.cons_append, run_cons, run_cons]
    cases step s e with
    | none => rfl
    | some s' => exact ih s'

/-- Has the user a buffer after these operations? -/
def endHeld : Bool → List Op → Bool
  | h, [] => h
  | _, .get :: r => endHeld true r
  | _, .put :: r => endHeld false r
  | h, .fill _ _ :: r => endHeld h r
  | h, .use _ _ :: r => endHeld h r
  | h, .send _ :: r => endHeld h r

/-- The contents of the buffer after these operations, if nobody else touches it. -/
def endView (m : Mem) : List Op → Mem
  | [] => m
  | .get :: r => endView (fun _ => 0) r
  | .fill off d :: r => endView (fillMem m off d) r
  | .put :: r => endView m r
  | .use _ _ :: r => endView m r
  | .send _ :: r => endView m r

theorem own_append (p q : List Op) (m : Mem) : own m (p ++ q) = own m p ++ own (endView m p) q := by
  induction p generalizing m with
  | nil => rfl
  | cons o r ih => cases o <;> simp [own, endView, ih]

/-- A user running alone. -/
theorem solo (pre rest : List Op) (s : St) (view : Mem) (held : Bool) (kn : Nat → Bool)
    (hp : (s.user 0).prog = pre ++ rest) (hg : Good held kn pre)
    (hh : held = true → ∃ b, (s.user 0).ptr = some b ∧ s.mem b = view) :
    ∃ evs s', run s evs = some s' ∧ (s'.user 0).prog = rest ∧ (s'.user 0).out = (s.user 0).out ++ own view pre ∧
      (∀ i, i ≠ 0 → s'.user i = s.user i) ∧
      (endHeld held pre = true → ∃ b, (s'.user 0).ptr = some b ∧ s'.mem b = endView view pre) := by
  induction pre generalizing s view held kn with
  | nil =>
    exact ⟨[], s, rfl, by simpa using hp, by simp [own], fun _ _ => rfl, by simpa [endHeld, endView] using hh⟩
  | cons o r ih =>
    cases o with
    | get =>
      simp only [Good] at hg
      have hst : step s (.act 0 s.free.length) = some
          { s with next := s.next + 1, mem := upd s.mem s.next (fun _ => 0), user := upd s.user 0 { s.user 0 with ptr := some s.next, prog := r ++ rest } } := by
        have hn : s.free[s.free.length]? = none := by simp
        simp only [step, hp, List.cons_append, hn]
      obtain ⟨evs, s', h1, h2, h3, h4, h5⟩ := ih (view := fun _ => 0) (held := true) (kn := fun _ => false) (by simp only [upd_self]) hg.2
        (fun _ => ⟨s.next, by simp only [upd_self], by simp only [upd_self]⟩)
        (s := { s with next := s.next + 1, mem := upd s.mem s.next (fun _ => 0), user := upd s.user 0 { s.user 0 with ptr := some s.next, prog := r ++ rest } })
      refine ⟨.act 0 s.free.length :: evs, s', ?_, h2, ?_, ?_, h5⟩
      · rw [run_cons, hst]; exact h1
      · rw [h3]; simp only [upd_self, own]
      · intro i hi; rw [h4 i hi]; simp only [upd_ne _ _ hi]
    | send d =>
      simp only [Good] at hg
      have hst : step s (.act 0 0) = some { s with user := upd s.user 0 { s.user 0 with prog := r ++ rest, out := (s.user 0).out ++ [d] } } := by
        simp only [step, hp, List.cons_append]
      obtain ⟨evs, s', h1, h2, h3, h4, h5⟩ := ih (view := view) (held := held) (kn := kn) (by simp only [upd_self]) hg (by simpa only [upd_self] using hh)
        (s := { s with user := upd s.user 0 { s.user 0 with prog := r ++ rest, out := (s.user 0).out ++ [d] } })
      refine ⟨.act 0 0 :: evs, s', ?_, h2, ?_, ?_, h5⟩
      · rw [run_cons, hst]; exact h1
      · rw [h3]; simp [upd_self, own]
      · intro i hi; rw [h4 i hi]; simp only [upd_ne _ _ hi]
    | fill off d =>
      simp only [Good] at hg
      obtain ⟨b, hb, hm⟩ := hh hg.1
      have hst : step s (.act 0 0) = some { s with mem := upd s.mem b (fillMem (s.mem b) off d), user := upd s.user 0 { s.user 0 with prog := r ++ rest } } := by
        simp only [step, hp, List.cons_append, hb]
      obtain ⟨evs, s', h1, h2, h3, h4, h5⟩ := ih (view := fillMem view off d) (held := held) (kn := _) (by simp only [upd_self]) hg.2
        (fun _ => ⟨b, by simpa only [upd_self] using hb, by simp only [upd_self, hm]⟩)
        (s := { s with mem := upd s.mem b (fillMem (s.mem b) off d), user := upd s.user 0 { s.user 0 with prog := r ++ rest } })
      refine ⟨.act 0 0 :: evs, s', ?_, h2, ?_, ?_, h5⟩
      · rw [run_cons, hst]; exact h1
      · rw [h3]; simp only [upd_self, own]
      · intro i hi; rw [h4 i hi]; simp only [upd_ne _ _ hi]
    | use off len =>
      simp only [Good] at hg
      obtain ⟨b, hb, hm⟩ := hh hg.1
      have hst : step s (.act 0 0) = some { s with user := upd s.user 0 { s.user 0 with prog := r ++ rest, out := (s.user 0).out ++ [readMem (s.mem b) off len] } } := by
        simp only [step, hp, List.cons_append, hb]
      obtain ⟨evs, s', h1, h2, h3, h4, h5⟩ := ih (view := view) (held := held) (kn := kn) (by simp only [upd_self]) hg.2.2
        (fun _ => ⟨b, by simpa only [upd_self] using hb, hm⟩)
        (s := { s with user := upd s.user 0 { s.user 0 with prog := r ++ rest, out := (s.user 0).out ++ [readMem (s.mem b) off len] } })
      refine ⟨.act 0 0 :: evs, s', ?_, h2, ?_, ?_, h5⟩
      · rw [run_cons, hst]; exact h1
      · rw [h3]; simp [upd_self, own, hm]
      · intro i hi; rw [h4 i hi]; simp only [upd_ne _ _ hi]
    | put =>
      simp only [Good] at hg
      obtain ⟨b, hb, hm⟩ := hh hg.1
      have hst : step s (.act 0 0) = some { s with free := b :: s.free, user := upd s.user 0 { s.user 0 with prog := r ++ rest } } := by
        simp only [step, hp, List.cons_append, hb]
      obtain ⟨evs, s', h1, h2, h3, h4, h5⟩ := ih (view := view) (held := false) (kn := _) (by simp only [upd_self]) hg.2 (fun h => absurd h (by simp))
        (s := { s with free := b :: s.free, user := upd s.user 0 { s.user 0 with prog := r ++ rest } })
      refine ⟨.act 0 0 :: evs, s', ?_, h2, ?_, ?_, h5⟩
      · rw [run_cons, hst]; exact h1
      · rw [h3]; simp only [upd_self, own]
      · intro i hi; rw [h4 i hi]; simp only [upd_ne _ _ hi]

/-- Users 0 and 1 with an empty pool. -/
def two (p q : List Op) : St :=
  { mem := fun _ _ => 0, free := [], next := 0
    user := fun i => if i = 0 then { prog := p } else if i = 1 then { prog := q } else {} }

theorem fresh_two (p q : List Op) : Fresh (two p q) := by
  refine ⟨List.nodup_nil, fun b hb => absurd hb (by simp [two]), ?_⟩
  intro i
  simp only [two]
  split
  · exact ⟨rfl, rfl⟩
  · split <;> exact ⟨rfl, rfl⟩

theorem good_ext (p : List Op) (held : Bool) (k k' : Nat → Bool) (h : ∀ a, k a = true → k' a = true) (hg : Good held k p) :
    Good held k' p := by
  induction p generalizing held k k' with
  | nil => trivial
  | cons o r ih =>
    cases o with
    | get => exact hg
    | put => exact hg
    | send d => exact ih held k k' h hg
    | fill off d =>
      refine ⟨hg.1, ih _ _ _ ?_ hg.2⟩
      intro a ha
      simp only [Bool.or_eq_true] at ha ⊢
      exact ha.imp (h a) id
    | use off len => exact ⟨hg.1, fun a h1 h2 => h a (hg.2.1 a h1 h2), ih _ _ _ h hg.2.2⟩

/-- Some other byte. -/
def other (x : UInt8) : UInt8 := if x = 0 then 1 else 0

theorem other_ne (x : UInt8) : other x ≠ x := by
  unfold other
  split
  · rename_i h; rw [h]; decide
  · rename_i h; exact fun e => h e.symm

/-- C122 (reading after giving back): whatever a user does before, if it writes from its buffer after having given
it back, another user that obeys the rules can make it write bytes that are not its own. -/
theorem use_after_put_leaks (pre post : List Op) (off len : Nat) (hg : Rules pre) (hh : endHeld false pre = true)
    (hl : 0 < len) :
    ∃ q evs s', Rules q ∧ run (two (pre ++ .put :: .use off len :: post) q) evs = some s' ∧
      ¬ (s'.user 0).out <+: own (fun _ => 0) (pre ++ .put :: .use off len :: post) := by
  obtain ⟨evs, s1, h1, h2, h3, h4, h5⟩ := solo pre (.put :: .use off len :: post)
    (two (pre ++ .put :: .use off len :: post) [.get, .fill off [other (endView (fun _ => 0) pre off)]])
    (fun _ => 0) false (fun _ => false) rfl hg (fun h => absurd h (by simp))
  obtain ⟨b, hb, hm⟩ := h5 hh
  have hu1 : s1.user 1 = { prog := [.get, .fill off [other (endView (fun _ => 0) pre off)]] } := by
    rw [h4 1 (by decide)]; rfl
  have hx : ∃ s', run s1 [.act 0 0, .act 1 0, .act 1 0, .act 0 0] = some s' ∧
      (s'.user 0).out = (s1.user 0).out ++ [readMem (fillMem (s1.mem b) off [other (endView (fun _ => 0) pre off)]) off len] := by
    simp [run, step, h2, hb, hu1, upd]
  obtain ⟨s', hr, ho⟩ := hx
  refine ⟨[.get, .fill off [other (endView (fun _ => 0) pre off)]], evs ++ [.act 0 0, .act 1 0, .act 1 0, .act 0 0], s',
    ⟨rfl, rfl, trivial⟩, ?_, ?_⟩
  · rw [run_append, h1]; exact hr
  · rw [ho, h3, own_append]
    intro hpre
    have h6 : (two (pre ++ .put :: .use off len :: post) [.get, .fill off [other (endView (fun _ => 0) pre off)]]).user 0
        = { prog := pre ++ .put :: .use off len :: post } := rfl
    rw [h6] at hpre
    simp only [List.nil_append, List.prefix_append_right_inj, own] at hpre
    rw [hm] at hpre
    have h7 := (List.cons_prefix_cons.1 hpre).1
    have h8 := congrArg (fun l => l[0]?) h7
    have hget : ∀ m : Mem, (readMem m off len)[0]? = some (m off) := by
      intro m
      simp [readMem, hl]
    simp only [hget, Option.some.injEq] at h8
    simp only [fillMem, List.length_singleton] at h8
    rw [if_pos (by omega)] at h8
    simp only [Nat.sub_self, List.getD_cons_zero] at h8
    exact other_ne _ h8

/-- C122 (writing after giving back): if a user writes into its buffer after having given it back, another
user that obeys the rules can be made to write bytes that are not its own. -/
theorem fill_after_put_corrupts (pre post : List Op) (off : Nat) (x : UInt8) (d : Bytes) (hg : Rules pre)
    (hh : endHeld false pre = true) :
    ∃ q evs s', Rules q ∧ run (two (pre ++ .put :: .fill off (x :: d) :: post) q) evs = some s' ∧
      (s'.user 1).prog = [] ∧ (s'.user 1).out ≠ own (fun _ => 0) q := by
  obtain ⟨evs, s1, h1, h2, h3, h4, h5⟩ := solo pre (.put :: .fill off (x :: d) :: post)
    (two (pre ++ .put :: .fill off (x :: d) :: post) [.get, .fill off [other x], .use off 1])
    (fun _ => 0) false (fun _ => false) rfl hg (fun h => absurd h (by simp))
  obtain ⟨b, hb, hm⟩ := h5 hh
  have hu1 : s1.user 1 = { prog := [.get, .fill off [other x], .use off 1] } := by
    rw [h4 1 (by decide)]; rfl
  have hx : ∃ s', run s1 [.act 0 0, .act 1 0, .act 1 0, .act 0 0, .act 1 0] = some s' ∧ (s'.user 1).prog = [] ∧
      (s'.user 1).out = [[x]] := by
    simp [run, step, h2, hb, hu1, upd, readMem, fillMem]
  obtain ⟨s', hr, hp, ho⟩ := hx
  refine ⟨[.get, .fill off [other x], .use off 1], evs ++ [.act 0 0, .act 1 0, .act 1 0, .act 0 0, .act 1 0], s',
    ⟨rfl, rfl, rfl, ?_, trivial⟩, ?_, hp, ?_⟩
  · intro a h1 h2
    simp; omega
  · rw [run_append, h1]; exact hr
  · rw [ho]
    simp [own, readMem, fillMem]
    exact fun h => other_ne x h.symm

end Verif.Pool
