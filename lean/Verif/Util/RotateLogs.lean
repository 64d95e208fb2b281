import Verif.Common
/-!
# C40: log rotation

Model of libcs/logger/file-rotatelogs/rotatelogs.go as used by libcs/logger/logger.go:69-76: pattern
`<file>.%Y%m%d`, rotation by size, purging by count (`rotationCount > 0`, default 7), no `Rotate()`, no
`forceNewFile`. Not modelled: purging by age (count 0), the symlink, failures of the operating system, and lock
files left by a crash. The removal of old files runs in its own goroutine (libcs/logger/file-rotatelogs/rotatelogs.go:383-388), so it is a
separate step here. The directory is the list of the names matching the glob `<file>.*`.
-/
set_option linter.unusedSimpArgs false
set_option linter.unusedVariables false
namespace Verif.Util.RotateLogs
open Verif

def digit (n : Nat) : UInt8 := UInt8.ofNat (48 + n % 10)

/-- `n` with `w` decimal digits. -/
def fixed : Nat → Nat → Bytes
  | 0, _ => []
  | w + 1, n => fixed w (n / 10) ++ [digit n]

def decF : Nat → Nat → Bytes
  | 0, _ => []
  | f + 1, n => if n < 10 then [digit n] else decF f (n / 10) ++ [digit n]

/-- `%d` (the fuel is enough: `valOf_dec`). -/
def dec (n : Nat) : Bytes := decF (n + 1) n

/-- libcs/logger/file-rotatelogs/rotatelogs.go:100-122 `genFilename` and 176-180: pattern `<file>.%Y%m%d`, then `.<generation>` for generations
above 0. `d` is the date as the number YYYYMMDD (local days are in calendar order). -/
def name (file : Bytes) (d g : Nat) : Bytes :=
  file ++ 46 :: fixed 8 d ++ (if g = 0 then [] else 46 :: dec g)

/-- Go string comparison `a <= b` (bytewise), the order of `filepath.Glob`. -/
def lexLe : Bytes → Bytes → Bool
  | [], _ => true
  | _ :: _, [] => false
  | a :: as, b :: bs => decide (a.toNat < b.toNat) || (a == b && lexLe as bs)

def insertS (x : Bytes) : List Bytes → List Bytes
  | [] => [x]
  | y :: ys => if lexLe x y then x :: y :: ys else y :: insertS x ys

/-- `sort.Strings` (any correct sort gives this list; names are distinct). -/
def isort : List Bytes → List Bytes
  | [] => []
  | x :: xs => insertS x (isort xs)

structure St where
  files : List Bytes
  /-- `curFn`, with `outFh` open on it -/
  cur : Option Bytes := none
  /-- `curBaseFn`, as the date -/
  base : Option Nat := none
  gen : Nat := 0
  /-- files that removal goroutines are still to unlink -/
  pending : List Bytes := []
deriving DecidableEq, Repr

/-- libcs/logger/file-rotatelogs/rotatelogs.go:174-186: the search for a free generation name. -/
def findFree (file : Bytes) (d : Nat) (files : List Bytes) : Nat → Nat → Option Nat
  | 0, _ => none
  | f + 1, g => if files.contains (name file d g) then findFree file d files f (g + 1) else some g

/-- libcs/logger/file-rotatelogs/rotatelogs.go:332-380: the sorted matches but the last `count`. -/
def toUnlink (count : Nat) (files : List Bytes) : List Bytes :=
  if count ≥ files.length then [] else (isort files).take (files.length - count)

/-- libcs/logger/file-rotatelogs/rotatelogs.go:191-230: open (create or append), purge, switch over. -/
def openFile (file : Bytes) (count d g : Nat) (s : St) : St :=
  let fn := name file d g
  let files := if s.files.contains fn then s.files else s.files ++ [fn]
  { files := files, cur := some fn, base := some d, gen := g, pending := s.pending ++ toUnlink count files }

/-- libcs/logger/file-rotatelogs/rotatelogs.go:151-156: the size is only known when `os.Stat` finds the current file. -/
def sizeRot (full : Bool) (s : St) : Bool :=
  match s.cur with
  | none => false
  | some c => s.files.contains c && full

/-- libcs/logger/file-rotatelogs/rotatelogs.go:128-230 `Write`/`getWriter_nolock(false, false)` on date `d`; `full` says that the size of the
current file has reached the limit (only asked when `os.Stat` finds the file). -/
def write (file : Bytes) (count d : Nat) (full : Bool) (s : St) : Option St :=
  if s.base ≠ some d then
    if sizeRot full s then (findFree file d s.files (s.files.length + 1) 0).map (fun g => openFile file count d g s)
    else some (openFile file count d 0 s)
  else if sizeRot full s then
    (findFree file d s.files (s.files.length + 1) (s.gen + 1)).map (fun g => openFile file count d g s)
  else some s

/-- A removal goroutine unlinks one file. -/
def unlink (p : Bytes) (s : St) : St := { s with files := s.files.filter (· != p), pending := s.pending.erase p }

/-! ## Lemmas: order -/

theorem lexLe_refl (a : Bytes) : lexLe a a = true := by
  induction a with
  | nil => rfl
  | cons x xs ih => simp [lexLe, ih]

theorem lexLe_total (a b : Bytes) : lexLe a b = true ∨ lexLe b a = true := by
  induction a generalizing b with
  | nil => left; rfl
  | cons x xs ih =>
    cases b with
    | nil => right; rfl
    | cons y ys =>
      simp only [lexLe, Bool.or_eq_true, decide_eq_true_eq, Bool.and_eq_true, beq_iff_eq]
      rcases Nat.lt_trichotomy x.toNat y.toNat with h | h | h
      · left; left; exact h
      · have : x = y := u8_eq_of_toNat h
        subst this
        rcases ih ys with h' | h'
        · left; right; exact ⟨rfl, h'⟩
        · right; right; exact ⟨rfl, h'⟩
      · right; left; exact h

theorem lexLe_antisymm {a b : Bytes} (h1 : lexLe a b = true) (h2 : lexLe b a = true) : a = b := by
  induction a generalizing b with
  | nil =>
    cases b with
    | nil => rfl
    | cons y ys => cases h2
  | cons x xs ih =>
    cases b with
    | nil => cases h1
    | cons y ys =>
      simp only [lexLe, Bool.or_eq_true, decide_eq_true_eq, Bool.and_eq_true, beq_iff_eq] at h1 h2
      rcases h1 with h1 | ⟨h1, h1'⟩
      · rcases h2 with h2 | ⟨h2, -⟩
        · omega
        · subst h2; omega
      · subst h1
        rcases h2 with h2 | ⟨-, h2⟩
        · omega
        · rw [ih h1' h2]

theorem lexLe_trans {a b c : Bytes} (h1 : lexLe a b = true) (h2 : lexLe b c = true) : lexLe a c = true := by
  induction a generalizing b c with
  | nil => rfl
  | cons x xs ih =>
    cases b with
    | nil => cases h1
    | cons y ys =>
      cases c with
      | nil => cases h2
      | cons z zs =>
        simp only [lexLe, Bool.or_eq_true, decide_eq_true_eq, Bool.and_eq_true, beq_iff_eq] at h1 h2 ⊢
        rcases h1 with h1 | ⟨h1, h1'⟩
        · rcases h2 with h2 | ⟨h2, -⟩
          · left; omega
          · subst h2; left; exact h1
        · subst h1
          rcases h2 with h2 | ⟨h2, h2'⟩
          · left; exact h2
          · right; exact ⟨h2, ih h1' h2'⟩

theorem lexLe_append (p a b : Bytes) : lexLe (p ++ a) (p ++ b) = lexLe a b := by
  induction p with
  | nil => rfl
  | cons x xs ih => simp [lexLe, ih]

theorem mem_insertS {x y : Bytes} {l : List Bytes} : y ∈ insertS x l ↔ y = x ∨ y ∈ l := by
  induction l with
  | nil => simp [insertS]
  | cons z zs ih =>
    unfold insertS
    split
    · simp
    · simp only [List.mem_cons, ih]
      constructor
      · rintro (h | h | h)
        · exact Or.inr (Or.inl h)
        · exact Or.inl h
        · exact Or.inr (Or.inr h)
      · rintro (h | h | h)
        · exact Or.inr (Or.inl h)
        · exact Or.inl h
        · exact Or.inr (Or.inr h)

theorem mem_isort {y : Bytes} {l : List Bytes} : y ∈ isort l ↔ y ∈ l := by
  induction l with
  | nil => simp [isort]
  | cons z zs ih => simp [isort, mem_insertS, ih]

theorem perm_insertS (x : Bytes) (l : List Bytes) : (insertS x l).Perm (x :: l) := by
  induction l with
  | nil => exact List.Perm.refl _
  | cons z zs ih =>
    unfold insertS
    split
    · exact List.Perm.refl _
    · exact (List.Perm.cons z ih).trans (List.Perm.swap x z zs)

theorem perm_isort (l : List Bytes) : (isort l).Perm l := by
  induction l with
  | nil => exact List.Perm.refl _
  | cons z zs ih => exact (perm_insertS z _).trans (List.Perm.cons z ih)

theorem sorted_insertS (x : Bytes) (l : List Bytes) (h : l.Pairwise (fun a b => lexLe a b = true)) :
    (insertS x l).Pairwise (fun a b => lexLe a b = true) := by
  induction l with
  | nil => simp [insertS]
  | cons z zs ih =>
    obtain ⟨h1, h2⟩ := List.pairwise_cons.1 h
    unfold insertS
    by_cases hx : lexLe x z = true
    · rw [if_pos hx]
      refine List.Pairwise.cons ?_ h
      intro y hy
      cases hy with
      | head => exact hx
      | tail _ hy => exact lexLe_trans hx (h1 y hy)
    · rw [if_neg hx]
      refine List.Pairwise.cons ?_ (ih h2)
      intro y hy
      rcases mem_insertS.1 hy with h3 | h3
      · subst h3
        rcases lexLe_total y z with h4 | h4
        · exact absurd h4 hx
        · exact h4
      · exact h1 y h3

theorem sorted_isort (l : List Bytes) : (isort l).Pairwise (fun a b => lexLe a b = true) := by
  induction l with
  | nil => exact List.Pairwise.nil
  | cons z zs ih => exact sorted_insertS z _ ih

theorem digit_toNat (n : Nat) : (digit n).toNat = 48 + n % 10 := by
  unfold digit
  rw [u8_ofNat_toNat]
  omega

/-- Dates of the same width compare as numbers, whatever follows. -/
theorem fixed_lt : ∀ (w : Nat) {d d' : Nat} (x y : Bytes), d < d' → d' < 10 ^ w →
    lexLe (fixed w d ++ x) (fixed w d' ++ y) = true ∧ lexLe (fixed w d' ++ y) (fixed w d ++ x) = false := by
  intro w
  induction w with
  | zero => intro d d' x y h1 h2; simp at h2; omega
  | succ w ih =>
    intro d d' x y h1 h2
    unfold fixed
    rw [List.append_assoc, List.append_assoc]
    rw [Nat.pow_succ] at h2
    by_cases hq : d / 10 < d' / 10
    · exact ih _ _ hq (by omega)
    · have : d / 10 = d' / 10 := by omega
      rw [this, lexLe_append, lexLe_append]
      have h3 := digit_toNat d
      have h4 := digit_toNat d'
      have hlt : (digit d).toNat < (digit d').toNat := by omega
      have hne : (digit d' == digit d) = false := by
        rw [beq_eq_false_iff_ne]; intro e; rw [e] at hlt; omega
      constructor
      · simp [lexLe, hlt]
      · simp only [List.cons_append, lexLe, hne]
        simp; omega

/-! ## Lemmas: names -/

def valOf : Bytes → Nat → Nat
  | [], acc => acc
  | b :: bs, acc => valOf bs (acc * 10 + (b.toNat - 48))

theorem valOf_append (a b : Bytes) (acc : Nat) : valOf (a ++ b) acc = valOf b (valOf a acc) := by
  induction a generalizing acc with
  | nil => rfl
  | cons x xs ih => simp [valOf, ih]

theorem valOf_decF : ∀ (f n : Nat), n < f → valOf (decF f n) 0 = n := by
  intro f
  induction f with
  | zero => intro n h; omega
  | succ f ih =>
    intro n hf
    unfold decF
    have hd := digit_toNat n
    by_cases h : n < 10
    · rw [if_pos h]; simp only [valOf]; omega
    · rw [if_neg h, valOf_append, ih (n / 10) (by omega)]
      simp only [valOf]; omega

theorem valOf_dec (n : Nat) : valOf (dec n) 0 = n := valOf_decF _ _ (by omega)

/-- Different generations have different names. -/
theorem name_inj {file : Bytes} {d g g' : Nat} (h : name file d g = name file d g') : g = g' := by
  unfold name at h
  have h := List.append_cancel_left h
  by_cases h0 : g = 0
  · by_cases h1 : g' = 0
    · omega
    · rw [if_pos h0, if_neg h1] at h; cases h
  · by_cases h1 : g' = 0
    · rw [if_neg h0, if_pos h1] at h; cases h
    · rw [if_neg h0, if_neg h1] at h
      simp only [List.cons.injEq, true_and] at h
      rw [← valOf_dec g, ← valOf_dec g', h]

theorem findFree_spec {file : Bytes} {d : Nat} {files : List Bytes} : ∀ {f g g' : Nat},
    findFree file d files f g = some g' → g ≤ g' ∧ name file d g' ∉ files ∧
      ∀ k, g ≤ k → k < g' → name file d k ∈ files := by
  intro f
  induction f with
  | zero => intro g g' h; cases h
  | succ f ih =>
    intro g g' h
    unfold findFree at h
    by_cases hc : files.contains (name file d g) = true
    · rw [if_pos hc] at h
      obtain ⟨h1, h2, h3⟩ := ih h
      refine ⟨by omega, h2, ?_⟩
      intro k hk1 hk2
      rcases Nat.eq_or_lt_of_le hk1 with e | e
      · subst e; simpa using hc
      · exact h3 k (by omega) hk2
    · rw [if_neg hc] at h
      cases h
      exact ⟨Nat.le_refl _, by simpa using hc, by intro k h1 h2; omega⟩

theorem findFree_none {file : Bytes} {d : Nat} {files : List Bytes} : ∀ {f g : Nat},
    findFree file d files f g = none → ∀ k, g ≤ k → k < g + f → name file d k ∈ files := by
  intro f
  induction f with
  | zero => intro g _ k h1 h2; omega
  | succ f ih =>
    intro g h k h1 h2
    unfold findFree at h
    by_cases hc : files.contains (name file d g) = true
    · rw [if_pos hc] at h
      rcases Nat.eq_or_lt_of_le h1 with e | e
      · subst e; simpa using hc
      · exact ih h k (by omega) (by omega)
    · rw [if_neg hc] at h; cases h

theorem nodup_subset_length {l m : List Bytes} (hn : l.Nodup) (hs : ∀ x ∈ l, x ∈ m) : l.length ≤ m.length := by
  induction l generalizing m with
  | nil => simp
  | cons x xs ih =>
    obtain ⟨h1, h2⟩ := List.nodup_cons.1 hn
    have hx : x ∈ m := hs x List.mem_cons_self
    have := ih (m := m.erase x) h2 (by
      intro y hy
      have hne : y ≠ x := fun e => h1 (e ▸ hy)
      exact (List.mem_erase_of_ne hne).2 (hs y (List.mem_cons_of_mem _ hy)))
    rw [List.length_erase_of_mem hx] at this
    have hp : 0 < m.length := List.length_pos_of_mem hx
    simp only [List.length_cons]; omega

/-- The search always ends: a directory of `n` files cannot hold `n+1` generations. -/
theorem findFree_total (file : Bytes) (d : Nat) (files : List Bytes) (g : Nat) :
    ∃ g', findFree file d files (files.length + 1) g = some g' := by
  cases h : findFree file d files (files.length + 1) g with
  | some g' => exact ⟨g', rfl⟩
  | none =>
    exfalso
    have hk := findFree_none h
    have := nodup_subset_length (l := (List.range (files.length + 1)).map (fun k => name file d (g + k))) (m := files) (by
      rw [List.Nodup, List.pairwise_map]
      refine List.Pairwise.imp ?_ (List.nodup_range (n := files.length + 1))
      intro a b hab e
      exact hab (by have := name_inj e; omega)) (by
      intro x hx
      obtain ⟨k, hk', e⟩ := List.mem_map.1 hx
      rw [List.mem_range] at hk'
      rw [← e]
      exact hk _ (by omega) (by omega))
    simp at this
    omega

/-! ## Histories -/

inductive Step where
  | write (d : Nat) (full : Bool)
  | unlink (p : Bytes)
  /-- the process ends (removals still to do are lost) and a new one starts -/
  | restart
deriving DecidableEq, Repr

def apply (file : Bytes) (count : Nat) (s : St) : Step → Option St
  | .write d full => write file count d full s
  | .unlink p => if p ∈ s.pending then some (unlink p s) else none
  | .restart => some { files := s.files }

def applyAll (file : Bytes) (count : Nat) : St → List Step → Option St
  | s, [] => some s
  | s, x :: xs =>
    match apply file count s x with
    | none => none
    | some s' => applyAll file count s' xs

/-! ## Theorems -/

/-- C40: writing never fails to find a name. -/
theorem write_total (file : Bytes) (count d : Nat) (full : Bool) (s : St) : ∃ s', write file count d full s = some s' := by
  unfold write
  obtain ⟨g0, h0⟩ := findFree_total file d s.files 0
  obtain ⟨g1, h1⟩ := findFree_total file d s.files (s.gen + 1)
  rw [h0, h1]
  split
  · split <;> exact ⟨_, rfl⟩
  · split <;> exact ⟨_, rfl⟩

/-- C40, first half: whenever a write switches to another file, that file either did not exist, or it is the
plain file of a new date (which is opened for appending, so nothing in it is overwritten). In particular a
rotation by size never reopens an existing generation. -/
theorem rotation_opens_fresh (file : Bytes) (count d : Nat) (full : Bool) (s s' : St)
    (h : write file count d full s = some s') :
    s' = s ∨ ∃ fn, s'.cur = some fn ∧ (fn ∉ s.files ∨ (fn = name file d 0 ∧ s.base ≠ some d)) ∧
      (∀ x ∈ s.files, x ∈ s'.files) ∧ fn ∈ s'.files := by
  have hopen : ∀ g, (∀ x ∈ s.files, x ∈ (openFile file count d g s).files) ∧
      name file d g ∈ (openFile file count d g s).files := by
    intro g
    unfold openFile
    dsimp only
    by_cases hc : s.files.contains (name file d g) = true
    · rw [if_pos hc]; exact ⟨fun x hx => hx, by simpa using hc⟩
    · rw [if_neg hc]; exact ⟨fun x hx => by simp [hx], by simp⟩
  unfold write at h
  by_cases hb : s.base ≠ some d
  · rw [if_pos hb] at h
    split at h
    · cases hf : findFree file d s.files (s.files.length + 1) 0 with
      | none => rw [hf] at h; cases h
      | some g =>
        rw [hf] at h
        cases h
        exact Or.inr ⟨name file d g, rfl, Or.inl (findFree_spec hf).2.1, hopen g⟩
    · cases h
      exact Or.inr ⟨name file d 0, rfl, Or.inr ⟨rfl, hb⟩, hopen 0⟩
  · rw [if_neg hb] at h
    split at h
    · cases hf : findFree file d s.files (s.files.length + 1) (s.gen + 1) with
      | none => rw [hf] at h; cases h
      | some g =>
        rw [hf] at h
        cases h
        exact Or.inr ⟨name file d g, rfl, Or.inl (findFree_spec hf).2.1, hopen g⟩
    · cases h
      exact Or.inl rfl

theorem filter_not_mem_le (l t r : List Bytes) (hp : (t ++ r).Perm l) :
    (l.filter (fun x => decide (x ∉ t))).length ≤ r.length := by
  have h1 := (hp.filter (fun x => decide (x ∉ t))).length_eq
  rw [← h1, List.filter_append]
  have : t.filter (fun x => decide (x ∉ t)) = [] := by
    rw [List.filter_eq_nil_iff]; intro x hx; simp [hx]
  rw [this, List.nil_append]
  exact List.length_filter_le _ _

/-- C40: when a write has switched files, at most `count` files remain once the removals it ordered are done. -/
theorem purge_keeps_at_most_count (file : Bytes) (count d : Nat) (full : Bool) (s s' : St)
    (h : write file count d full s = some s') (hsw : s' ≠ s) :
    (s'.files.filter (fun x => decide (x ∉ s'.pending))).length ≤ count := by
  have key : ∀ g, ((openFile file count d g s).files.filter (fun x => decide (x ∉ (openFile file count d g s).pending))).length ≤ count := by
    intro g
    unfold openFile
    dsimp only
    suffices hall : ∀ fs : List Bytes, (fs.filter (fun x => decide (x ∉ s.pending ++ toUnlink count fs))).length ≤ count from hall _
    intro fs
    have hsub : ∀ (l : List Bytes), (l.filter (fun x => decide (x ∉ s.pending ++ toUnlink count fs))).length ≤
        (l.filter (fun x => decide (x ∉ toUnlink count fs))).length := by
      intro l
      rw [← List.countP_eq_length_filter, ← List.countP_eq_length_filter]
      apply List.countP_mono_left
      intro x _ hx
      simp only [List.mem_append, not_or, decide_eq_true_eq] at hx ⊢
      exact hx.2
    refine Nat.le_trans (hsub fs) ?_
    unfold toUnlink
    by_cases hc : count ≥ fs.length
    · rw [if_pos hc]
      exact Nat.le_trans (List.length_filter_le _ _) hc
    · rw [if_neg hc]
      have := filter_not_mem_le fs ((isort fs).take (fs.length - count)) ((isort fs).drop (fs.length - count))
        (by rw [List.take_append_drop]; exact perm_isort fs)
      refine Nat.le_trans this ?_
      rw [List.length_drop, (perm_isort fs).length_eq]
      omega
  unfold write at h
  split at h
  · split at h
    · cases hf : findFree file d s.files (s.files.length + 1) 0 with
      | none => rw [hf] at h; cases h
      | some g => rw [hf] at h; cases h; exact key g
    · cases h; exact key 0
  · split at h
    · cases hf : findFree file d s.files (s.files.length + 1) (s.gen + 1) with
      | none => rw [hf] at h; cases h
      | some g => rw [hf] at h; cases h; exact key g
    · cases h; exact absurd rfl hsw

/-- If the file being opened is the greatest of the directory in string order, it is not ordered removed. -/
theorem greatest_not_unlinked {count : Nat} {files : List Bytes} {fn : Bytes} (hc : 0 < count) (hn : files.Nodup)
    (hmax : ∀ x ∈ files, lexLe x fn = true) : ∀ x ∈ toUnlink count files, x ∈ files ∧ x ≠ fn := by
  intro x hx
  unfold toUnlink at hx
  by_cases h : count ≥ files.length
  · rw [if_pos h] at hx; cases hx
  · rw [if_neg h] at hx
    have hxm : x ∈ files := mem_isort.1 (List.mem_of_mem_take hx)
    refine ⟨hxm, ?_⟩
    intro e
    subst e
    -- something different comes after it in the sorted list
    have hs := sorted_isort files
    have hnd : (isort files).Nodup := (perm_isort files).nodup_iff.2 hn
    rw [← List.take_append_drop (files.length - count) (isort files)] at hs hnd
    have hlen : ((isort files).drop (files.length - count)).length = count := by
      rw [List.length_drop, (perm_isort files).length_eq]; omega
    cases hd : (isort files).drop (files.length - count) with
    | nil => rw [hd] at hlen; simp at hlen; omega
    | cons y ys =>
      rw [hd] at hs hnd
      have h1 := (List.pairwise_append.1 hs).2.2 x hx y List.mem_cons_self
      have h2 : y ∈ files := mem_isort.1 (List.mem_of_mem_drop (hd ▸ List.mem_cons_self))
      have h3 := lexLe_antisymm h1 (hmax y h2)
      have h4 := (List.nodup_append.1 hnd).2.2 x hx y List.mem_cons_self
      exact h4 h3

/-- Names in calendar order, generations up to 9 in numerical order: string order agrees. -/
theorem name_le {file : Bytes} {d d' g g' : Nat} (hd' : d' < 100000000) (hg : g ≤ 9) (hg' : g' ≤ 9)
    (h : d < d' ∨ (d = d' ∧ g ≤ g')) : lexLe (name file d g) (name file d' g') = true := by
  unfold name
  rw [List.append_assoc, List.append_assoc, lexLe_append]
  have hcons : ∀ x y, lexLe (46 :: x) (46 :: y) = lexLe x y := by intro x y; simp [lexLe]
  rw [List.cons_append, List.cons_append, hcons]
  rcases h with h | ⟨h, hgg⟩
  · exact (fixed_lt 8 _ _ h (by simpa using hd')).1
  · subst h
    rw [lexLe_append]
    by_cases h0 : g = 0
    · rw [if_pos h0]; rfl
    · rw [if_neg h0, if_neg (by omega), hcons]
      unfold dec decF
      rw [if_pos (by omega), if_pos (by omega)]
      have h1 := digit_toNat g
      have h2 := digit_toNat g'
      simp only [lexLe, Bool.or_eq_true, decide_eq_true_eq, Bool.and_eq_true, beq_iff_eq, and_true]
      rcases Nat.eq_or_lt_of_le hgg with e | e
      · right; rw [e]
      · left; omega

/-- A quiet history of one process: dates do not go back and stay below the year 10000, and no date sees more
than nine rotations by size. The process starts on date `d0` with the directory `files`. -/
inductive Quiet (file : Bytes) (count d0 : Nat) (files : List Bytes) : Nat → St → Prop where
  | init : Quiet file count d0 files d0 { files := files }
  | write {d d' : Nat} {full : Bool} {s s' : St} : Quiet file count d0 files d s → d ≤ d' → d' < 100000000 →
      write file count d' full s = some s' → s'.gen ≤ 9 → Quiet file count d0 files d' s'
  | unlink {d : Nat} {s : St} {p : Bytes} : Quiet file count d0 files d s → p ∈ s.pending →
      Quiet file count d0 files d (unlink p s)

/-- The directory of a process that starts for the first time on its date: only files of earlier dates, with
at most nine generations each. -/
def EarlierOnly (file : Bytes) (d : Nat) (files : List Bytes) : Prop :=
  files.Nodup ∧ ∀ x ∈ files, ∃ d1 g1, x = name file d1 g1 ∧ d1 < d ∧ g1 ≤ 9

/-- `x` is an older log than generation `g` of date `d`. -/
def Older (file : Bytes) (d g : Nat) (x : Bytes) : Prop :=
  ∃ d1 g1, x = name file d1 g1 ∧ g1 ≤ 9 ∧ (d1 < d ∨ (d1 = d ∧ g1 < g))

theorem Older.ne {file : Bytes} {d g : Nat} {x : Bytes} (hd : d < 100000000) (h : Older file d g x) : x ≠ name file d g := by
  obtain ⟨d1, g1, e, h1, h2⟩ := h
  subst e
  intro e
  rcases h2 with h2 | ⟨h2, h3⟩
  · unfold name at e
    rw [List.append_assoc, List.append_assoc] at e
    have e := List.append_cancel_left e
    simp only [List.cons_append, List.cons.injEq, true_and] at e
    have := (fixed_lt 8 (if g1 = 0 then [] else 46 :: dec g1) (if g = 0 then [] else 46 :: dec g) h2 (by simpa using hd)).2
    rw [← e, lexLe_refl] at this
    cases this
  · subst h2
    have := name_inj e
    omega

theorem Older.le {file : Bytes} {d g : Nat} {x : Bytes} (hd : d < 100000000) (hg : g ≤ 9) (h : Older file d g x) :
    lexLe x (name file d g) = true := by
  obtain ⟨d1, g1, e, h1, h2⟩ := h
  subst e
  exact name_le hd h1 hg (by omega)

theorem Older.mono {file : Bytes} {d g d' g' : Nat} {x : Bytes} (h : Older file d g x) (h' : d < d' ∨ (d = d' ∧ g ≤ g')) :
    Older file d' g' x := by
  obtain ⟨d1, g1, e, h1, h2⟩ := h
  exact ⟨d1, g1, e, h1, by omega⟩

structure Running (file : Bytes) (d : Nat) (s : St) (d0 : Nat) : Prop where
  base : s.base = some d0
  cur : s.cur = some (name file d0 s.gen)
  le : d0 ≤ d
  lt : d0 < 100000000
  gen : s.gen ≤ 9
  mem : name file d0 s.gen ∈ s.files
  files : ∀ x ∈ s.files, x = name file d0 s.gen ∨ Older file d0 s.gen x
  pend : ∀ x ∈ s.pending, Older file d0 s.gen x

def QInv (file : Bytes) (d : Nat) (s : St) : Prop :=
  s.files.Nodup ∧
  ((s.cur = none ∧ s.base = none ∧ s.pending = [] ∧ ∀ x ∈ s.files, Older file d 0 x) ∨ ∃ d0, Running file d s d0)

/-- Opening a file newer than everything keeps the invariant. -/
theorem open_running {file : Bytes} {count d g : Nat} {s : St} (hc : 0 < count) (hn : s.files.Nodup) (hd : d < 100000000)
    (hg : g ≤ 9) (hf : ∀ x ∈ s.files, Older file d g x) (hp : ∀ x ∈ s.pending, Older file d g x) :
    QInv file d (openFile file count d g s) := by
  have hnot : name file d g ∉ s.files := fun h => (hf _ h).ne hd rfl
  have hcn : s.files.contains (name file d g) = false := by simpa using hnot
  have hnd : (s.files ++ [name file d g]).Nodup := by
    rw [List.nodup_append]
    refine ⟨hn, by simp, ?_⟩
    intro a ha b hb
    simp only [List.mem_singleton] at hb
    subst hb
    intro e; subst e; exact hnot ha
  have hmax : ∀ x ∈ s.files ++ [name file d g], lexLe x (name file d g) = true := by
    intro x hx
    rcases List.mem_append.1 hx with h | h
    · exact (hf x h).le hd hg
    · simp only [List.mem_singleton] at h; subst h; exact lexLe_refl _
  refine ⟨by unfold openFile; dsimp only; rw [hcn]; exact hnd, Or.inr ⟨d, ?_⟩⟩
  unfold openFile
  dsimp only
  rw [hcn]
  refine ⟨rfl, rfl, Nat.le_refl _, hd, hg, by simp, ?_, ?_⟩
  · intro x hx
    dsimp only at hx
    simp only [Bool.false_eq_true, if_false] at hx
    rcases List.mem_append.1 hx with h | h
    · exact Or.inr (hf x h)
    · exact Or.inl (by simpa using h)
  · intro x hx
    dsimp only at hx
    simp only [Bool.false_eq_true, if_false] at hx
    rcases List.mem_append.1 hx with h | h
    · exact hp x h
    · obtain ⟨h1, h2⟩ := greatest_not_unlinked hc hnd hmax x h
      rcases List.mem_append.1 h1 with h | h
      · exact hf x h
      · exact absurd (by simpa using h) h2

theorem quiet_inv {file : Bytes} {count d0 d : Nat} {files : List Bytes} {s : St} (hc : 0 < count)
    (h0 : EarlierOnly file d0 files) (h : Quiet file count d0 files d s) : QInv file d s := by
  induction h with
  | init =>
    refine ⟨h0.1, Or.inl ⟨rfl, rfl, rfl, ?_⟩⟩
    intro x hx
    obtain ⟨d1, g1, e, h1, h2⟩ := h0.2 x hx
    exact ⟨d1, g1, e, h2, Or.inl h1⟩
  | @write d d' full s s' _ hle hlt hw hg ih =>
    obtain ⟨hn, hi⟩ := ih
    unfold write at hw
    rcases hi with ⟨h1, h2, h3, h4⟩ | ⟨e0, hr⟩
    · rw [if_pos (by rw [h2]; simp), if_neg (by simp [sizeRot, h1])] at hw
      cases hw
      exact open_running hc hn hlt (by omega) (fun x hx => (h4 x hx).mono (by omega)) (by rw [h3]; simp)
    · have hle0 := hr.le
      by_cases hb : s.base ≠ some d'
      · have hlt' : e0 < d' := by
          rcases Nat.eq_or_lt_of_le (Nat.le_trans hr.le hle) with e | e
          · exact absurd (by rw [hr.base, e]) hb
          · exact e
        have hfiles : ∀ x ∈ s.files, Older file d' 0 x := by
          intro x hx
          rcases hr.files x hx with e | h
          · exact ⟨e0, s.gen, e, hr.gen, Or.inl hlt'⟩
          · exact h.mono (Or.inl hlt')
        have hq := open_running (count := count) hc hn hlt (by omega : 0 ≤ 9) hfiles (fun x hx => (hr.pend x hx).mono (Or.inl hlt'))
        rw [if_pos hb] at hw
        by_cases hz : sizeRot full s = true
        · rw [if_pos hz] at hw
          have hff : findFree file d' s.files (s.files.length + 1) 0 = some 0 := by
            unfold findFree
            rw [if_neg]
            intro hm
            exact (hfiles _ (by simpa using hm)).ne hlt rfl
          rw [hff] at hw
          cases hw
          exact hq
        · rw [if_neg hz] at hw
          cases hw
          exact hq
      · have he : e0 = d' := by
          have : s.base = some d' := by simpa using hb
          rw [hr.base] at this
          exact Option.some.inj this
        subst he
        rw [if_neg hb] at hw
        by_cases hz : sizeRot full s = true
        · rw [if_pos hz] at hw
          have hfiles : ∀ x ∈ s.files, Older file e0 (s.gen + 1) x := by
            intro x hx
            rcases hr.files x hx with e | h
            · exact ⟨e0, s.gen, e, hr.gen, Or.inr ⟨rfl, by omega⟩⟩
            · exact h.mono (by omega)
          have hff : findFree file e0 s.files (s.files.length + 1) (s.gen + 1) = some (s.gen + 1) := by
            unfold findFree
            rw [if_neg]
            intro hm
            exact (hfiles _ (by simpa using hm)).ne hlt rfl
          rw [hff] at hw
          cases hw
          exact open_running (count := count) hc hn hlt hg hfiles (fun x hx => (hr.pend x hx).mono (by omega))
        · rw [if_neg hz] at hw
          cases hw
          exact ⟨hn, Or.inr ⟨e0, hr.base, hr.cur, Nat.le_refl _, hr.lt, hr.gen, hr.mem, hr.files, hr.pend⟩⟩
  | @unlink d s p _ hp ih =>
    obtain ⟨hn, hi⟩ := ih
    refine ⟨hn.sublist List.filter_sublist, ?_⟩
    rcases hi with ⟨h1, h2, h3, h4⟩ | ⟨e0, hr⟩
    · rw [h3] at hp; cases hp
    · refine Or.inr ⟨e0, hr.base, hr.cur, hr.le, hr.lt, hr.gen, ?_, ?_, ?_⟩
      · have hne := (hr.pend p hp).ne hr.lt
        show name file e0 s.gen ∈ s.files.filter (· != p)
        rw [List.mem_filter]
        refine ⟨hr.mem, ?_⟩
        simp only [bne_iff_ne, ne_eq]
        exact fun e => hne e.symm
      · intro x hx
        exact hr.files x (List.mem_filter.1 hx).1
      · intro x hx
        exact hr.pend x (List.mem_of_mem_erase hx)

/-- C40, second half, for quiet histories: the file being written is in the directory and is never ordered
removed. Missing for the full claim: days with more than nine rotations and restarts, for which it is false
(`tenth_rotation_deletes_live_log`, `restart_deletes_live_log`). -/
theorem live_log_kept_partial {file : Bytes} {count d0 d : Nat} {files : List Bytes} {s : St} (hc : 0 < count)
    (h0 : EarlierOnly file d0 files) (h : Quiet file count d0 files d s) (c : Bytes) (hcur : s.cur = some c) :
    c ∈ s.files ∧ c ∉ s.pending := by
  obtain ⟨-, hi⟩ := quiet_inv hc h0 h
  rcases hi with ⟨h1, -⟩ | ⟨e0, hr⟩
  · rw [h1] at hcur; cases hcur
  · rw [hr.cur] at hcur
    cases hcur
    exact ⟨hr.mem, fun hm => (hr.pend _ hm).ne hr.lt rfl⟩

theorem applyAll_witness {file : Bytes} {count : Nat} {s0 : St} {steps : List Step} {x : Bytes}
    (h : (applyAll file count s0 steps).map (fun s => (s.cur, s.files.contains x)) = some (some x, false)) :
    ∃ s, applyAll file count s0 steps = some s ∧ s.cur = some x ∧ x ∉ s.files := by
  cases ha : applyAll file count s0 steps with
  | none => rw [ha] at h; cases h
  | some s =>
    rw [ha] at h
    simp only [Option.map_some, Option.some.injEq, Prod.mk.injEq] at h
    exact ⟨s, rfl, h.1, by simpa using h.2⟩

/-- C40 is false on the tenth rotation by size of a day with the default count of 7: `log.….10` sorts before
`log.….4`, so the file that has just been opened is the one that is removed. -/
theorem tenth_rotation_deletes_live_log : ∃ (steps : List Step) (s : St),
    applyAll (ascii "l") 7 { files := [] } steps = some s ∧ s.cur = some (ascii "l.20260101.10") ∧
    ascii "l.20260101.10" ∉ s.files := by
  refine ⟨[.write 20260101 false] ++ List.replicate 7 (.write 20260101 true) ++
    [.unlink (ascii "l.20260101"), .write 20260101 true, .unlink (ascii "l.20260101.1"), .write 20260101 true,
     .unlink (ascii "l.20260101.2"), .write 20260101 true, .unlink (ascii "l.20260101.10")], applyAll_witness (by decide +kernel)⟩

/-- … and from then on everything logged on that day is lost: the size of a missing file is never found to reach
the limit, so no write switches to another file. -/
theorem lost_log_never_rotates (file : Bytes) (count d : Nat) (s : St) (c : Bytes) (hb : s.base = some d)
    (hc : s.cur = some c) (hm : c ∉ s.files) (full : Bool) : write file count d full s = some s := by
  unfold write
  rw [if_neg (by simp [hb]), if_neg (by simp [sizeRot, hc, hm])]

/-- C40 is also false across restarts: after the plain file of the day has been purged, a new process creates it
again, and it is the first one in string order, so it is removed. -/
theorem restart_deletes_live_log : ∃ (steps : List Step) (s : St),
    applyAll (ascii "l") 7 { files := [] } steps = some s ∧ s.cur = some (ascii "l.20260101") ∧
    ascii "l.20260101" ∉ s.files := by
  refine ⟨[.write 20260101 false] ++ List.replicate 7 (.write 20260101 true) ++
    [.unlink (ascii "l.20260101"), .restart, .write 20260101 false, .unlink (ascii "l.20260101")],
    applyAll_witness (by decide +kernel)⟩

/-- Nonvacuity of the quiet histories: two rotations, a new day, a removal. -/
example : ∃ s, Quiet (ascii "l") 2 20260102 [ascii "l.20260101"] 20260103 s ∧ s.cur = some (ascii "l.20260103") ∧
    s.files = [ascii "l.20260102.1", ascii "l.20260103"] ∧ EarlierOnly (ascii "l") 20260102 [ascii "l.20260101"] := by
  have q0 := Quiet.init (file := ascii "l") (count := 2) (d0 := 20260102) (files := [ascii "l.20260101"])
  have q1 := Quiet.write (d' := 20260102) (full := false) (s' := ⟨[ascii "l.20260101", ascii "l.20260102"],
    some (ascii "l.20260102"), some 20260102, 0, []⟩) q0 (by decide) (by decide) (by decide +kernel) (by decide)
  have q2 := Quiet.write (d' := 20260102) (full := true) (s' := ⟨[ascii "l.20260101", ascii "l.20260102", ascii "l.20260102.1"],
    some (ascii "l.20260102.1"), some 20260102, 1, [ascii "l.20260101"]⟩) q1 (by decide) (by decide) (by decide +kernel) (by decide)
  have q3 := Quiet.unlink (p := ascii "l.20260101") q2 (by decide +kernel)
  have q4 := Quiet.write (d' := 20260103) (full := false) (s' := ⟨[ascii "l.20260102", ascii "l.20260102.1", ascii "l.20260103"],
    some (ascii "l.20260103"), some 20260103, 0, [ascii "l.20260102"]⟩) q3 (by decide) (by decide) (by decide +kernel) (by decide)
  have q5 := Quiet.unlink (p := ascii "l.20260102") q4 (by decide +kernel)
  refine ⟨_, q5, by decide +kernel, by decide +kernel, by simp, ?_⟩
  intro x hx
  simp only [List.mem_singleton] at hx
  exact ⟨20260101, 0, by rw [hx]; decide +kernel, by decide, by decide⟩

end Verif.Util.RotateLogs
