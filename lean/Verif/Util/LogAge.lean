import Verif.Util.RotateLogs
import Verif.AMap
/-!
# C132, C133: logs kept by age, and what else log rotation deletes

libcs/logger/file-rotatelogs/rotatelogs.go as used by libcs/logger/logger.go:69-76 with the count limit switched off
(`logFileMaxCount: 0`): `New` (libcs/logger/file-rotatelogs/rotatelogs.go:27-98) then keeps logs for seven days. Time is in seconds; the local date
(`YYYYMMDD` as a number) is any function of it. What is logged is remembered with the time, to state what is kept.
Simplified: files hold lines; the glob `<file>.*` is a prefix (the configured path contains none of `*?[\%`); other failures of
the operating system than a lock file that is already there are not modelled.
-/
set_option linter.unusedSimpArgs false
set_option linter.unusedVariables false
namespace Verif.Util.LogAge
open Verif RotateLogs

/-- A file: time of the last write, and the lines with the times at which they were logged. -/
structure File where
  mtime : Nat
  lines : List (Nat × Nat)
deriving DecidableEq, Repr

structure St where
  now : Nat
  /-- the directory, without the configured path itself -/
  files : AMap Bytes File
  /-- an ordinary file is at the configured path -/
  plain : Bool
  /-- the symbolic link at the configured path -/
  link : Option Bytes
  /-- `curFn`, with `outFh` open on it -/
  cur : Option Bytes
  /-- `curBaseFn`, as the date -/
  base : Option Nat
  gen : Nat
  /-- files that removal goroutines are still to unlink -/
  pending : List Bytes
  /-- everything that was logged, with the time -/
  log : List (Nat × Nat)
deriving DecidableEq, Repr

inductive Ev where
  /-- `x` is logged; `full`: the current file has reached the size limit; `lockOk`: no lock file is in the way -/
  | write (x : Nat) (full lockOk : Bool)
  | wait (n : Nat)
  /-- a removal goroutine gets to `p` -/
  | unlink (p : Bytes)
  /-- the program ends (or is killed) and is started again -/
  | restart
  /-- somebody else writes a file -/
  | foreign (n : Bytes)

/-- libcs/logger/file-rotatelogs/rotatelogs.go:334-363, with `maxAge` seven days (76-79) and `rotationCount` 0: `n` is to be removed. -/
def old (file : Bytes) (now : Nat) (n : Bytes) (f : File) : Bool :=
  (file ++ [46]).isPrefixOf n && !(ascii "_lock").isSuffixOf n && !(ascii "_symlink").isSuffixOf n &&
    !decide (now < f.mtime + 604800)

/-- libcs/logger/file-rotatelogs/rotatelogs.go:332-363. -/
def toUnlink (file : Bytes) (now : Nat) (files : AMap Bytes File) : List Bytes :=
  (files.filter (fun e => old file now e.1 e.2)).map Prod.fst

/-- libcs/logger/file-rotatelogs/rotatelogs.go:191-230 with `rotate_nolock` (280-391): open (create or append), switch the link over, purge. -/
def openFile (date : Nat → Nat) (file : Bytes) (g : Nat) (lockOk : Bool) (s : St) : St :=
  let fn := name file (date s.now) g
  let files := match AMap.get s.files fn with
    | some _ => s.files
    | none => AMap.set s.files fn ⟨s.now, []⟩
  { s with
    files := files, cur := some fn, base := some (date s.now), gen := g,
    pending := if lockOk then s.pending ++ toUnlink file s.now files else s.pending,
    plain := if lockOk then false else s.plain, link := if lockOk then some fn else s.link }

/-- libcs/logger/file-rotatelogs/rotatelogs.go:151-156. -/
def sizeRot (full : Bool) (s : St) : Bool :=
  match s.cur with
  | none => false
  | some c => (AMap.get s.files c).isSome && full

/-- libcs/logger/file-rotatelogs/rotatelogs.go:144-230 `getWriter_nolock(false, false)`. -/
def getWriter (date : Nat → Nat) (file : Bytes) (full lockOk : Bool) (s : St) : Option St :=
  if s.base ≠ some (date s.now) then
    if sizeRot full s then
      (findFree file (date s.now) (AMap.keys s.files) ((AMap.keys s.files).length + 1) 0).map (fun g => openFile date file g lockOk s)
    else some (openFile date file 0 lockOk s)
  else if sizeRot full s then
    (findFree file (date s.now) (AMap.keys s.files) ((AMap.keys s.files).length + 1) (s.gen + 1)).map
      (fun g => openFile date file g lockOk s)
  else some s

/-- libcs/logger/file-rotatelogs/rotatelogs.go:128-141 `Write`: if the open file has been unlinked, what is written is gone. -/
def put (x : Nat) (s : St) : St :=
  match s.cur with
  | none => { s with log := s.log ++ [(x, s.now)] }
  | some c =>
    match AMap.get s.files c with
    | none => { s with log := s.log ++ [(x, s.now)] }
    | some f => { s with files := AMap.set s.files c ⟨s.now, f.lines ++ [(x, s.now)]⟩, log := s.log ++ [(x, s.now)] }

/-- One event. libcs/logger/file-rotatelogs/rotatelogs.go:383-388 (`unlink`); an event that is not possible changes nothing. A foreign file has not the name of
a log. -/
def step (date : Nat → Nat) (file : Bytes) (s : St) : Ev → St
  | .write x full lockOk =>
    match getWriter date file full lockOk s with
    | none => s
    | some s' => put x s'
  | .wait n => { s with now := s.now + n }
  | .unlink p => if p ∈ s.pending then { s with files := AMap.del s.files p, pending := s.pending.erase p } else s
  | .restart => { s with cur := none, base := none, gen := 0, pending := [] }
  | .foreign n => { s with files := AMap.set s.files n ⟨s.now, []⟩ }

def run (date : Nat → Nat) (file : Bytes) (s : St) : List Ev → St
  | [] => s
  | e :: es => run date file (step date file s e) es

/-- The program is started at time `t` in a directory with these files. -/
def start (t : Nat) (files : AMap Bytes File) (plain : Bool) : St :=
  ⟨t, files, plain, none, none, none, 0, [], []⟩

/-! ## Specification -/

/-- A calendar: later is not an earlier date, a date lasts less than seven days. -/
structure Calendar (date : Nat → Nat) : Prop where
  mono : ∀ t t', t ≤ t' → date t ≤ date t'
  short : ∀ t t', t ≤ t' → date t = date t' → t' < t + 604800

/-- The files in the directory at first: whoever wrote a file with the name of a log wrote it on that date or later. -/
def Plausible (date : Nat → Nat) (file : Bytes) (files : AMap Bytes File) : Prop :=
  ∀ n f, AMap.get files n = some f → f.lines = [] ∧
    ∀ d g, d < 100000000 → n = name file d g → ∃ t0, t0 ≤ f.mtime ∧ date t0 = d

/-- Others do not write files with the names of logs. -/
def Apart (file : Bytes) (es : List Ev) : Prop := ∀ n, Ev.foreign n ∈ es → ∀ d g, n ≠ name file d g

/-- Line `x`, logged at `t`, can be read: it is in a file of the directory that has the name of a log. -/
def Readable (file : Bytes) (s : St) (x t : Nat) : Prop :=
  ∃ d g f, AMap.get s.files (name file d g) = some f ∧ (x, t) ∈ f.lines

/-! ## Proofs -/

theorem name_date {file : Bytes} {d d' g g' : Nat} (hd : d < 100000000) (hd' : d' < 100000000)
    (h : name file d g = name file d' g') : d = d' := by
  unfold name at h
  rw [List.append_assoc, List.append_assoc] at h
  have h := List.append_cancel_left h
  simp only [List.cons_append, List.cons.injEq, true_and] at h
  rcases Nat.lt_trichotomy d d' with hlt | e | hlt
  · have := fixed_lt 8 (if g = 0 then [] else 46 :: dec g) (if g' = 0 then [] else 46 :: dec g') hlt (by simpa using hd')
    rw [h] at this
    rw [this.1] at this
    exact absurd this.2 (by simp)
  · exact e
  · have := fixed_lt 8 (if g' = 0 then [] else 46 :: dec g') (if g = 0 then [] else 46 :: dec g) hlt (by simpa using hd)
    rw [h] at this
    rw [this.1] at this
    exact absurd this.2 (by simp)

structure Inv (date : Nat → Nat) (file : Bytes) (s : St) : Prop where
  /-- lines are older than the file's time -/
  line : ∀ n f, AMap.get s.files n = some f → ∀ l ∈ f.lines, l.2 ≤ f.mtime ∧ l.2 ≤ s.now ∧ ∃ d g, n = name file d g
  /-- a log was written on its date or later -/
  dated : ∀ n f, AMap.get s.files n = some f → ∀ d g, d < 100000000 → n = name file d g → ∃ t0, t0 ≤ f.mtime ∧ date t0 = d
  /-- what is to be removed is a log of an earlier date, with old lines only -/
  pend : ∀ p ∈ s.pending, (∀ d g, d < 100000000 → p = name file d g → d < date s.now) ∧
    ∀ f, AMap.get s.files p = some f → ∀ l ∈ f.lines, l.2 + 604800 ≤ s.now
  /-- the open file is there as long as its date lasts -/
  open_ : ∀ d, s.base = some d → d ≤ date s.now ∧ s.cur = some (name file d s.gen) ∧
    (d = date s.now → (AMap.get s.files (name file d s.gen)).isSome)
  /-- nothing that was logged lately is lost -/
  kept : ∀ l ∈ s.log, l.2 + 604800 ≤ s.now ∨ ∃ n f, AMap.get s.files n = some f ∧ l ∈ f.lines

theorem inv_start {date : Nat → Nat} {file : Bytes} {files : AMap Bytes File} (h : Plausible date file files) (t : Nat) (plain : Bool) :
    Inv date file (start t files plain) := by
  refine ⟨?_, ?_, ?_, ?_, ?_⟩
  · intro n f hf l hl
    rw [(h n f hf).1] at hl; cases hl
  · intro n f hf d g hd hn
    exact (h n f hf).2 d g hd hn
  · intro p hp; cases hp
  · intro d hd; cases hd
  · intro l hl; cases hl

theorem mem_toUnlink {file : Bytes} {now : Nat} {files : AMap Bytes File} {p : Bytes} (h : p ∈ toUnlink file now files) :
    ∃ f, (p, f) ∈ files ∧ old file now p f = true := by
  unfold toUnlink at h
  obtain ⟨e, he, rfl⟩ := List.mem_map.1 h
  obtain ⟨a, b⟩ := List.mem_filter.1 he
  exact ⟨e.2, a, b⟩

/-- Opening a file, with the invariant that keys are distinct. -/
theorem inv_open {date : Nat → Nat} {file : Bytes} (hc : Calendar date) {s : St} (hi : Inv date file s) (hn : (AMap.keys s.files).Nodup)
    (hy : date s.now < 100000000) (g : Nat) (lockOk : Bool) :
    Inv date file (openFile date file g lockOk s) ∧ (AMap.keys (openFile date file g lockOk s).files).Nodup ∧
      (openFile date file g lockOk s).base = some (date s.now) ∧ (openFile date file g lockOk s).now = s.now := by
  -- the directory after opening
  have hfs : ∃ files, files = (openFile date file g lockOk s).files ∧ (AMap.keys files).Nodup ∧
      (∀ n f, AMap.get files n = some f → AMap.get s.files n = some f ∨ (n = name file (date s.now) g ∧ f = ⟨s.now, []⟩)) ∧
      (∀ n f, AMap.get s.files n = some f → AMap.get files n = some f) ∧
      (AMap.get files (name file (date s.now) g)).isSome := by
    unfold openFile
    cases hg : AMap.get s.files (name file (date s.now) g) with
    | some f => exact ⟨s.files, by simp [hg], hn, fun n f h => Or.inl h, fun n f h => h, by simp [hg]⟩
    | none =>
      refine ⟨AMap.set s.files (name file (date s.now) g) ⟨s.now, []⟩, by simp [hg], AMap.nodup_set hn _ _, ?_, ?_, by simp⟩
      · intro n f h
        rw [AMap.get_set] at h
        split at h
        · rename_i e
          exact Or.inr ⟨e.symm, (Option.some.inj h).symm⟩
        · exact Or.inl h
      · intro n f h
        rw [AMap.get_set, if_neg]
        · exact h
        · intro e; rw [e, h] at hg; cases hg
  obtain ⟨files, e1, f1, f2, f3, f4⟩ := hfs
  have hpend : (openFile date file g lockOk s).pending = if lockOk then s.pending ++ toUnlink file s.now files else s.pending := by
    rw [e1]; rfl
  have hrest : (openFile date file g lockOk s).base = some (date s.now) ∧ (openFile date file g lockOk s).now = s.now ∧
      (openFile date file g lockOk s).cur = some (name file (date s.now) g) ∧ (openFile date file g lockOk s).gen = g ∧
      (openFile date file g lockOk s).log = s.log := ⟨rfl, rfl, rfl, rfl, rfl⟩
  obtain ⟨r1, r2, r3, r4, r5⟩ := hrest
  generalize openFile date file g lockOk s = s' at *
  have line : ∀ n f, AMap.get s'.files n = some f → ∀ l ∈ f.lines, l.2 ≤ f.mtime ∧ l.2 ≤ s.now ∧ ∃ d g, n = name file d g := by
    intro n f h l hl
    rw [← e1] at h
    rcases f2 n f h with h | ⟨rfl, rfl⟩
    · exact hi.line n f h l hl
    · cases hl
  have dated : ∀ n f, AMap.get s'.files n = some f → ∀ d g, d < 100000000 → n = name file d g →
      ∃ t0, t0 ≤ f.mtime ∧ date t0 = d := by
    intro n f h d g' hd hg
    rw [← e1] at h
    rcases f2 n f h with h | ⟨rfl, rfl⟩
    · exact hi.dated n f h d g' hd hg
    · exact ⟨s.now, Nat.le_refl _, name_date (hy) hd hg⟩
  refine ⟨⟨by rw [r2]; exact line, dated, ?_, ?_, ?_⟩, e1 ▸ f1, r1, r2⟩
  · intro p hp
    rw [r2]
    have hold : p ∈ s.pending → (∀ d g, d < 100000000 → p = name file d g → d < date s.now) ∧
        ∀ f, AMap.get s'.files p = some f → ∀ l ∈ f.lines, l.2 + 604800 ≤ s.now := by
      intro hp
      refine ⟨(hi.pend p hp).1, ?_⟩
      intro f hf l hl
      rw [← e1] at hf
      rcases f2 p f hf with h | ⟨rfl, rfl⟩
      · exact (hi.pend p hp).2 f h l hl
      · cases hl
    rw [hpend] at hp
    split at hp
    · rcases List.mem_append.1 hp with hp | hp
      · exact hold hp
      · obtain ⟨f, m1, m2⟩ := mem_toUnlink hp
        have hget := AMap.get_of_mem f1 m1
        have hmt : f.mtime + 604800 ≤ s.now := by
          unfold old at m2
          simp only [Bool.and_eq_true, Bool.not_eq_true', decide_eq_false_iff_not] at m2
          omega
        refine ⟨?_, ?_⟩
        · intro d g' hd hpn
          obtain ⟨t0, a, b⟩ := dated p f (e1 ▸ hget) d g' hd hpn
          have h1 := hc.mono t0 s.now (by omega)
          rcases Nat.lt_or_ge d (date s.now) with h | h
          · exact h
          · have : date t0 = date s.now := by omega
            have := hc.short t0 s.now (by omega) this
            omega
        · intro f' hf' l hl
          rw [← e1, hget] at hf'
          have := Option.some.inj hf'
          subst this
          have := (line p f (e1 ▸ hget) l hl).1
          omega
    · exact hold hp
  · intro d hd
    rw [r1] at hd
    have := Option.some.inj hd
    subst this
    rw [r2, r3, r4, ← e1]
    exact ⟨Nat.le_refl _, rfl, fun _ => f4⟩
  · intro l hl
    rw [r5] at hl
    rw [r2, ← e1]
    rcases hi.kept l hl with h | ⟨n, f, a, b⟩
    · exact Or.inl h
    · exact Or.inr ⟨n, f, f3 n f a, b⟩

theorem inv_getWriter {date : Nat → Nat} {file : Bytes} (hc : Calendar date) {s s' : St} (hi : Inv date file s)
    (hn : (AMap.keys s.files).Nodup) (hy : date s.now < 100000000) {full lockOk : Bool} (h : getWriter date file full lockOk s = some s') :
    Inv date file s' ∧ (AMap.keys s'.files).Nodup ∧ s'.base = some (date s.now) ∧ s'.now = s.now := by
  unfold getWriter at h
  split at h
  · split at h
    · obtain ⟨g, _, rfl⟩ := Option.map_eq_some_iff.1 h
      exact inv_open hc hi hn hy g lockOk
    · cases h
      exact inv_open hc hi hn hy 0 lockOk
  · rename_i hb
    split at h
    · obtain ⟨g, _, rfl⟩ := Option.map_eq_some_iff.1 h
      exact inv_open hc hi hn hy g lockOk
    · cases h
      exact ⟨hi, hn, by simpa using hb, rfl⟩

theorem getWriter_total (date : Nat → Nat) (file : Bytes) (full lockOk : Bool) (s : St) :
    ∃ s', getWriter date file full lockOk s = some s' := by
  unfold getWriter
  split
  · split
    · obtain ⟨g, hg⟩ := findFree_total file (date s.now) (AMap.keys s.files) 0
      exact ⟨_, by rw [hg]; rfl⟩
    · exact ⟨_, rfl⟩
  · split
    · obtain ⟨g, hg⟩ := findFree_total file (date s.now) (AMap.keys s.files) (s.gen + 1)
      exact ⟨_, by rw [hg]; rfl⟩
    · exact ⟨_, rfl⟩

theorem now_step (date : Nat → Nat) (file : Bytes) (s : St) (e : Ev) : s.now ≤ (step date file s e).now := by
  cases e with
  | write x full lockOk =>
    obtain ⟨s', h⟩ := getWriter_total date file full lockOk s
    have hg : s'.now = s.now := by
      unfold getWriter at h
      split at h <;> split at h <;> first
        | (obtain ⟨g, _, rfl⟩ := Option.map_eq_some_iff.1 h; rfl)
        | (cases h; rfl)
    simp only [step]
    rw [h]
    simp only [put]
    split
    · simp only [hg]; exact Nat.le_refl _
    · split <;> (simp only [hg]; exact Nat.le_refl _)
  | wait n => exact Nat.le_add_right _ _
  | unlink p => simp only [step]; split <;> exact Nat.le_refl _
  | restart => exact Nat.le_refl _
  | foreign n => exact Nat.le_refl _

theorem now_run (date : Nat → Nat) (file : Bytes) : ∀ (es : List Ev) (s : St), s.now ≤ (run date file s es).now := by
  intro es
  induction es with
  | nil => intro s; exact Nat.le_refl _
  | cons e es ih => intro s; exact Nat.le_trans (now_step date file s e) (ih _)

theorem inv_step {date : Nat → Nat} {file : Bytes} (hc : Calendar date) {s : St} (hi : Inv date file s)
    (hn : (AMap.keys s.files).Nodup) (hy : date s.now < 100000000) (e : Ev) (hf : ∀ n, e = .foreign n → ∀ d g, n ≠ name file d g) :
    Inv date file (step date file s e) ∧ (AMap.keys (step date file s e).files).Nodup := by
  cases e with
  | write x full lockOk =>
    simp only [step]
    obtain ⟨s', h⟩ := getWriter_total date file full lockOk s
    rw [h]
    obtain ⟨i, n', b, nw⟩ := inv_getWriter hc hi hn hy h
    simp only
    unfold put
    obtain ⟨o1, o2, o3⟩ := i.open_ _ b
    have hsome := o3 (by rw [nw])
    obtain ⟨f, hf⟩ := Option.isSome_iff_exists.1 hsome
    rw [o2]
    simp only
    rw [hf]
    simp only
    have hget : ∀ n, AMap.get (AMap.set s'.files (name file (date s.now) s'.gen) ⟨s'.now, f.lines ++ [(x, s'.now)]⟩) n =
        if name file (date s.now) s'.gen = n then some ⟨s'.now, f.lines ++ [(x, s'.now)]⟩ else AMap.get s'.files n := by
      intro n; rw [AMap.get_set]
    rw [← nw] at hget hf b o2 hy ⊢
    refine ⟨⟨?_, ?_, ?_, ?_, ?_⟩, AMap.nodup_set n' _ _⟩
    · intro n f' h' l hl
      have h' := (hget n).symm.trans h'
      split at h'
      · rename_i e
        have := Option.some.inj h'
        subst this
        rcases List.mem_append.1 hl with hl | hl
        · have := (i.line _ f hf l hl).2.1
          exact ⟨this, this, _, _, e.symm⟩
        · simp only [List.mem_cons, List.not_mem_nil, or_false] at hl
          subst hl
          exact ⟨Nat.le_refl _, Nat.le_refl _, _, _, e.symm⟩
      · exact i.line n f' h' l hl
    · intro n f' h' d g hd hnm
      have h' := (hget n).symm.trans h'
      split at h'
      · rename_i e
        have := Option.some.inj h'
        subst this
        exact ⟨s'.now, Nat.le_refl _, name_date (hy) hd (e.trans hnm)⟩
      · exact i.dated n f' h' d g hd hnm
    · intro p hp
      refine ⟨(i.pend p hp).1, ?_⟩
      intro f' h' l hl
      have h' := (hget p).symm.trans h'
      split at h'
      · rename_i e
        have := (i.pend p hp).1 _ _ (hy) e.symm
        exact absurd this (Nat.lt_irrefl _)
      · exact (i.pend p hp).2 f' h' l hl
    · intro d hd
      have hd' : s'.base = some d := hd
      rw [b] at hd'
      have := Option.some.inj hd'
      subst this
      refine ⟨Nat.le_refl _, rfl, fun _ => ?_⟩
      exact Option.isSome_iff_exists.2 ⟨_, (hget _).trans (if_pos rfl)⟩
    · intro l hl
      rcases List.mem_append.1 hl with hl | hl
      · rcases i.kept l hl with h | ⟨n, f', h1, h2⟩
        · exact Or.inl h
        · by_cases e : name file (date s'.now) s'.gen = n
          · subst e
            rw [hf] at h1
            have := Option.some.inj h1
            subst this
            exact Or.inr ⟨_, _, (hget _).trans (if_pos rfl), List.mem_append_left _ h2⟩
          · exact Or.inr ⟨n, f', (hget n).trans (by rw [if_neg e]; exact h1), h2⟩
      · simp only [List.mem_cons, List.not_mem_nil, or_false] at hl
        subst hl
        exact Or.inr ⟨_, _, (hget _).trans (if_pos rfl), by simp⟩
  | wait n =>
    refine ⟨⟨?_, hi.dated, ?_, ?_, ?_⟩, hn⟩
    · intro m f h l hl
      obtain ⟨a, b, c⟩ := hi.line m f h l hl
      exact ⟨a, Nat.le_trans b (Nat.le_add_right _ _), c⟩
    · intro p hp
      refine ⟨fun d g hd hpn => Nat.lt_of_lt_of_le ((hi.pend p hp).1 d g hd hpn) (hc.mono _ _ (Nat.le_add_right _ _)), ?_⟩
      intro f hf l hl
      exact Nat.le_trans ((hi.pend p hp).2 f hf l hl) (Nat.le_add_right _ _)
    · intro d hd
      obtain ⟨a, b, c⟩ := hi.open_ d hd
      have hm : date s.now ≤ date (s.now + n) := hc.mono _ _ (Nat.le_add_right _ _)
      refine ⟨Nat.le_trans a hm, b, fun e => c ?_⟩
      have e : d = date (s.now + n) := e
      omega
    · intro l hl
      rcases hi.kept l hl with h | h
      · exact Or.inl (Nat.le_trans h (Nat.le_add_right _ _))
      · exact Or.inr h
  | unlink p =>
    simp only [step]
    split
    · rename_i hp
      have hget : ∀ n, AMap.get (AMap.del s.files p) n = if p = n then none else AMap.get s.files n := fun n => AMap.get_del _ _ _
      have hsub : ∀ n f, AMap.get (AMap.del s.files p) n = some f → p ≠ n ∧ AMap.get s.files n = some f := by
        intro n f h
        rw [hget] at h
        split at h
        · cases h
        · rename_i e; exact ⟨e, h⟩
      refine ⟨⟨?_, ?_, ?_, ?_, ?_⟩, AMap.nodup_del hn _⟩
      · intro n f h; exact hi.line n f (hsub n f h).2
      · intro n f h; exact hi.dated n f (hsub n f h).2
      · intro q hq
        have hq := List.mem_of_mem_erase hq
        exact ⟨(hi.pend q hq).1, fun f hf => (hi.pend q hq).2 f (hsub q f hf).2⟩
      · intro d hd
        obtain ⟨a, b, c⟩ := hi.open_ d hd
        refine ⟨a, b, fun e => ?_⟩
        have e : d = date s.now := e
        have hne : p ≠ name file d s.gen := by
          intro h
          have := (hi.pend p hp).1 d s.gen (by rw [e]; exact hy) h
          omega
        show (AMap.get (AMap.del s.files p) (name file d s.gen)).isSome = true
        rw [hget, if_neg hne]
        exact c e
      · intro l hl
        rcases hi.kept l hl with h | ⟨n, f, h1, h2⟩
        · exact Or.inl h
        · by_cases e : p = n
          · subst e
            exact Or.inl ((hi.pend p hp).2 f h1 l h2)
          · exact Or.inr ⟨n, f, by show AMap.get (AMap.del s.files p) n = _; rw [hget, if_neg e]; exact h1, h2⟩
    · exact ⟨hi, hn⟩
  | restart =>
    refine ⟨⟨hi.line, hi.dated, ?_, ?_, hi.kept⟩, hn⟩
    · intro p hp; cases hp
    · intro d hd; cases hd
  | foreign n =>
    have hf := hf n rfl
    have hget : ∀ m, AMap.get (AMap.set s.files n ⟨s.now, []⟩) m = if n = m then some ⟨s.now, []⟩ else AMap.get s.files m :=
      fun m => AMap.get_set _ _ _ _
    have hsub : ∀ m f, AMap.get (AMap.set s.files n ⟨s.now, []⟩) m = some f →
        (n = m ∧ f = ⟨s.now, []⟩) ∨ AMap.get s.files m = some f := by
      intro m f h
      rw [hget] at h
      split at h
      · rename_i e; exact Or.inl ⟨e, (Option.some.inj h).symm⟩
      · exact Or.inr h
    refine ⟨⟨?_, ?_, ?_, ?_, ?_⟩, AMap.nodup_set hn _ _⟩
    · intro m f h l hl
      rcases hsub m f h with ⟨rfl, rfl⟩ | h
      · cases hl
      · exact hi.line m f h l hl
    · intro m f h d g hd hm
      rcases hsub m f h with ⟨rfl, rfl⟩ | h
      · exact absurd hm (hf d g)
      · exact hi.dated m f h d g hd hm
    · intro p hp
      refine ⟨(hi.pend p hp).1, ?_⟩
      intro f h l hl
      rcases hsub p f h with ⟨rfl, rfl⟩ | h
      · cases hl
      · exact (hi.pend p hp).2 f h l hl
    · intro d hd
      obtain ⟨a, b, c⟩ := hi.open_ d hd
      refine ⟨a, b, fun e => ?_⟩
      show (AMap.get (AMap.set s.files n ⟨s.now, []⟩) (name file d s.gen)).isSome = true
      rw [hget, if_neg (hf _ _)]
      exact c e
    · intro l hl
      rcases hi.kept l hl with h | ⟨m, f, h1, h2⟩
      · exact Or.inl h
      · refine Or.inr ⟨m, f, ?_, h2⟩
        show AMap.get (AMap.set s.files n ⟨s.now, []⟩) m = _
        rw [hget, if_neg]
        · exact h1
        · intro e
          obtain ⟨_, _, d, g, hm⟩ := hi.line m f h1 l h2
          exact hf d g (e.trans hm)

theorem inv_run {date : Nat → Nat} {file : Bytes} (hc : Calendar date) : ∀ (es : List Ev) (s : St), Inv date file s →
    (AMap.keys s.files).Nodup → Apart file es → date (run date file s es).now < 100000000 →
    Inv date file (run date file s es) ∧ (AMap.keys (run date file s es).files).Nodup := by
  intro es
  induction es with
  | nil => intro s hi hn _ _; exact ⟨hi, hn⟩
  | cons e es ih =>
    intro s hi hn ha hy
    have hy0 : date s.now < 100000000 := Nat.lt_of_le_of_lt (hc.mono _ _ (now_run date file (e :: es) s)) hy
    obtain ⟨a, b⟩ := inv_step hc hi hn hy0 e (fun n h => ha n (by simp [h]))
    exact ih _ a b (fun n h => ha n (by simp [h])) hy

/-- **C132.** With the count limit off, every line that was logged in the last seven days can be read - through any number of
writes, rotations by date and by size, restarts (before the year 10000), slow removals, leftover lock files, and whatever others write to the directory. -/
theorem week_of_logs_kept (date : Nat → Nat) (hc : Calendar date) (file : Bytes) (t : Nat) (files : AMap Bytes File) (plain : Bool)
    (hn : (AMap.keys files).Nodup) (hp : Plausible date file files) (es : List Ev) (ha : Apart file es)
    (hy : date (run date file (start t files plain) es).now < 100000000) (x tx : Nat)
    (hx : (x, tx) ∈ (run date file (start t files plain) es).log)
    (hlate : (run date file (start t files plain) es).now < tx + 604800) :
    Readable file (run date file (start t files plain) es) x tx := by
  obtain ⟨hi, _⟩ := inv_run hc es _ (inv_start hp t plain) hn ha hy
  rcases hi.kept _ hx with h | ⟨n, f, h1, h2⟩
  · exact absurd h (by omega)
  · obtain ⟨_, _, d, g, rfl⟩ := hi.line n f h1 _ h2
    exact ⟨d, g, f, h1, h2⟩

/-- Nothing is logged but what is written, and every write is. -/
theorem log_is_what_was_written (date : Nat → Nat) (file : Bytes) (s : St) (x : Nat) (full lockOk : Bool) :
    (step date file s (.write x full lockOk)).log = s.log ++ [(x, s.now)] := by
  have hg : ∀ s', getWriter date file full lockOk s = some s' → s'.log = s.log ∧ s'.now = s.now := by
    intro s' h
    unfold getWriter at h
    split at h <;> split at h <;> first
      | (obtain ⟨g, _, rfl⟩ := Option.map_eq_some_iff.1 h; exact ⟨rfl, rfl⟩)
      | (cases h; exact ⟨rfl, rfl⟩)
  obtain ⟨s', h⟩ := getWriter_total date file full lockOk s
  obtain ⟨a, b⟩ := hg s' h
  simp only [step]
  rw [h]
  simp only [put]
  split
  · simp only [a, b]
  · split <;> simp only [a, b]

/-- All removals that are due are done. -/
def settle (s : St) : St := { s with files := s.pending.foldl AMap.del s.files, pending := [] }

theorem get_foldl_del (ps : List Bytes) : ∀ (m : AMap Bytes File) (n : Bytes),
    AMap.get (ps.foldl AMap.del m) n = if n ∈ ps then none else AMap.get m n := by
  induction ps with
  | nil => intro m n; simp
  | cons p ps ih =>
    intro m n
    rw [List.foldl_cons, ih, AMap.get_del]
    by_cases h : n ∈ ps
    · simp [h]
    · by_cases e : p = n
      · subst e; simp
      · simp [h, e, show ¬ n = p from fun x => e x.symm]

/-- `settle` is what the removal goroutines do, one file after another. -/
theorem settle_is_unlinking (date : Nat → Nat) (file : Bytes) (s : St) :
    run date file s (s.pending.map Ev.unlink) = settle s := by
  suffices h : ∀ (ps : List Bytes) (s : St), s.pending = ps → run date file s (ps.map Ev.unlink) = settle s from h _ s rfl
  intro ps
  induction ps with
  | nil => intro s h; simp [run, settle, h]; cases s; simp_all
  | cons p ps ih =>
    intro s h
    have hs : step date file s (.unlink p) = { s with files := AMap.del s.files p, pending := ps } := by
      simp [step, h]
    simp only [List.map_cons, run]
    rw [hs, ih _ rfl]
    simp [settle, h]

theorem name_last (file : Bytes) (d g : Nat) : ∃ k, (name file d g).getLast? = some (digit k) := by
  unfold name
  by_cases hg : g = 0
  · refine ⟨d, ?_⟩
    rw [if_pos hg]
    simp [fixed, List.getLast?_append, List.getLast?_cons]
  · refine ⟨g, ?_⟩
    rw [if_neg hg]
    unfold dec
    unfold decF
    split <;> simp [List.getLast?_append, List.getLast?_cons]

/-- **C132.** And logs are not kept longer: when a new file has been opened and the removals are done, the directory has no log that was not
written for seven days. -/
theorem old_logs_are_removed (date : Nat → Nat) (file : Bytes) (s : St) (hn : (AMap.keys s.files).Nodup) (full : Bool)
    (s' : St) (hs : getWriter date file full true s = some s') (hnew : s.base ≠ some (date s.now) ∨ sizeRot full s = true)
    (d g : Nat) (f : File) (hf : AMap.get (settle s').files (name file d g) = some f) : s.now < f.mtime + 604800 := by
  have hsuf : ∀ (q : Bytes), q.getLast? = some 107 → q ≠ [] → q.isSuffixOf (name file d g) = false := by
    intro q hq hne
    cases h : q.isSuffixOf (name file d g) with
    | false => rfl
    | true =>
      obtain ⟨r, hr⟩ := List.isSuffixOf_iff_suffix.1 h
      have h1 : (name file d g).getLast? = some 107 := by
        rw [← hr, List.getLast?_append, hq]; rfl
      have h2 := name_last file d g
      obtain ⟨k, hk⟩ := h2
      rw [h1] at hk
      have := Option.some.inj hk
      have h3 := digit_toNat k
      rw [← this] at h3
      have : (107 : UInt8).toNat = 107 := rfl
      omega
  have hopen : ∃ g', s' = openFile date file g' true s := by
    unfold getWriter at hs
    split at hs
    · split at hs
      · obtain ⟨g', _, rfl⟩ := Option.map_eq_some_iff.1 hs; exact ⟨g', rfl⟩
      · cases hs; exact ⟨0, rfl⟩
    · rename_i hb
      split at hs
      · obtain ⟨g', _, rfl⟩ := Option.map_eq_some_iff.1 hs; exact ⟨g', rfl⟩
      · rename_i hz
        rcases hnew with h | h
        · exact absurd h (by simpa using hb)
        · exact absurd h hz
  obtain ⟨g', rfl⟩ := hopen
  simp only [settle] at hf
  rw [get_foldl_del] at hf
  split at hf
  · cases hf
  · rename_i hnp
    have hp : (openFile date file g' true s).pending = s.pending ++ toUnlink file s.now (openFile date file g' true s).files := rfl
    rw [hp] at hnp
    have hnp : name file d g ∉ toUnlink file s.now (openFile date file g' true s).files :=
      fun h => hnp (List.mem_append_right _ h)
    rcases Nat.lt_or_ge s.now (f.mtime + 604800) with h | h
    · exact h
    · exfalso
      apply hnp
      unfold toUnlink
      refine List.mem_map.2 ⟨(name file d g, f), List.mem_filter.2 ⟨AMap.mem_of_get _ hf, ?_⟩, rfl⟩
      unfold old
      have h1 : (file ++ [46]).isPrefixOf (name file d g) = true := by
        rw [List.isPrefixOf_iff_prefix]
        exact ⟨fixed 8 d ++ (if g = 0 then [] else 46 :: dec g), by simp [name]⟩
      have h2 := hsuf (ascii "_lock") (by decide) (by decide)
      have h3 := hsuf (ascii "_symlink") (by decide) (by decide)
      simp only [h1, h2, h3, Bool.not_false, Bool.and_true, Bool.true_and, Bool.not_eq_true', decide_eq_false_iff_not]
      omega

/-! ## C133: what else is touched -/

theorem getWriter_files {date : Nat → Nat} {file : Bytes} {full lockOk : Bool} {s s' : St} (h : getWriter date file full lockOk s = some s') :
    (s'.files = s.files ∨ ∃ g, s'.files = AMap.set s.files (name file (date s.now) g) ⟨s.now, []⟩) ∧
    (∀ p ∈ s'.pending, p ∈ s.pending ∨ (file ++ [46]).isPrefixOf p = true) ∧
    (∀ d, s'.base = some d → s.base = some d ∧ s'.cur = s.cur ∨ ∃ d g, s'.cur = some (name file d g)) := by
  have key : ∀ g, ((openFile date file g lockOk s).files = s.files ∨
        ∃ g', (openFile date file g lockOk s).files = AMap.set s.files (name file (date s.now) g') ⟨s.now, []⟩) ∧
      (∀ p ∈ (openFile date file g lockOk s).pending, p ∈ s.pending ∨ (file ++ [46]).isPrefixOf p = true) ∧
      (∀ d, (openFile date file g lockOk s).base = some d → s.base = some d ∧ (openFile date file g lockOk s).cur = s.cur ∨
        ∃ d g', (openFile date file g lockOk s).cur = some (name file d g')) := by
    intro g
    refine ⟨?_, ?_, fun d _ => Or.inr ⟨_, _, rfl⟩⟩
    · unfold openFile
      cases hg : AMap.get s.files (name file (date s.now) g) with
      | some f => exact Or.inl (by simp [hg])
      | none => exact Or.inr ⟨g, by simp [hg]⟩
    · intro p hp
      cases lockOk with
      | false => exact Or.inl hp
      | true =>
        have hp : p ∈ s.pending ++ toUnlink file s.now (openFile date file g true s).files := hp
        rcases List.mem_append.1 hp with hp | hp
        · exact Or.inl hp
        · obtain ⟨f, _, h⟩ := mem_toUnlink hp
          unfold old at h
          simp only [Bool.and_eq_true] at h
          exact Or.inr h.1.1.1
  unfold getWriter at h
  split at h
  · split at h
    · obtain ⟨g, _, rfl⟩ := Option.map_eq_some_iff.1 h; exact key g
    · cases h; exact key 0
  · split at h
    · obtain ⟨g, _, rfl⟩ := Option.map_eq_some_iff.1 h; exact key g
    · cases h
      exact ⟨Or.inl rfl, fun p hp => Or.inl hp, fun d hd => Or.inl ⟨hd, rfl⟩⟩

/-- Only names that begin with the configured path and a dot are ever open or to be removed. -/
def Near (file : Bytes) (s : St) : Prop :=
  (∀ p ∈ s.pending, (file ++ [46]).isPrefixOf p = true) ∧ (∀ c, s.cur = some c → (file ++ [46]).isPrefixOf c = true)

theorem name_near (file : Bytes) (d g : Nat) : (file ++ [46]).isPrefixOf (name file d g) = true := by
  rw [List.isPrefixOf_iff_prefix]
  exact ⟨fixed 8 d ++ (if g = 0 then [] else 46 :: dec g), by simp [name]⟩

theorem near_step {date : Nat → Nat} {file : Bytes} {s : St} (hs : Near file s) (e : Ev) (n : Bytes)
    (hfar : (file ++ [46]).isPrefixOf n = false) (he : e ≠ .foreign n) :
    Near file (step date file s e) ∧ AMap.get (step date file s e).files n = AMap.get s.files n := by
  obtain ⟨h1, h2⟩ := hs
  cases e with
  | write x full lockOk =>
    obtain ⟨s', h⟩ := getWriter_total date file full lockOk s
    have hcur : ∀ c, s'.cur = some c → (file ++ [46]).isPrefixOf c = true := by
      intro c hc
      have hb : s'.base = some (date s.now) := by
        unfold getWriter at h
        split at h
        · split at h
          · obtain ⟨g, _, rfl⟩ := Option.map_eq_some_iff.1 h; rfl
          · cases h; rfl
        · rename_i hb
          split at h
          · obtain ⟨g, _, rfl⟩ := Option.map_eq_some_iff.1 h; rfl
          · cases h; simpa using hb
      rcases (getWriter_files h).2.2 _ hb with ⟨_, e⟩ | ⟨d, g, e⟩
      · exact h2 c (e ▸ hc)
      · rw [e] at hc
        have := Option.some.inj hc
        subst this
        exact name_near _ _ _
    have hpend : ∀ p ∈ s'.pending, (file ++ [46]).isPrefixOf p = true := by
      intro p hp
      rcases (getWriter_files h).2.1 p hp with h | h
      · exact h1 p h
      · exact h
    have hfar' : ∀ m, (file ++ [46]).isPrefixOf m = true → m ≠ n := by
      rintro m hm rfl
      rw [hm] at hfar; cases hfar
    have hget : AMap.get s'.files n = AMap.get s.files n := by
      rcases (getWriter_files h).1 with e | ⟨g, e⟩
      · rw [e]
      · rw [e, AMap.get_set, if_neg (hfar' _ (name_near _ _ _))]
    simp only [step]
    rw [h]
    simp only [put]
    split
    · exact ⟨⟨hpend, hcur⟩, hget⟩
    · rename_i c hc
      split
      · exact ⟨⟨hpend, hcur⟩, hget⟩
      · refine ⟨⟨hpend, hcur⟩, ?_⟩
        show AMap.get (AMap.set s'.files c _) n = _
        rw [AMap.get_set, if_neg (hfar' c (hcur c hc))]
        exact hget
  | wait k => exact ⟨⟨h1, h2⟩, rfl⟩
  | unlink p =>
    simp only [step]
    split
    · rename_i hp
      refine ⟨⟨fun q hq => h1 q (List.mem_of_mem_erase hq), h2⟩, ?_⟩
      show AMap.get (AMap.del s.files p) n = _
      rw [AMap.get_del, if_neg]
      rintro rfl
      rw [h1 _ hp] at hfar; cases hfar
    · exact ⟨⟨h1, h2⟩, rfl⟩
  | restart =>
    refine ⟨⟨?_, ?_⟩, rfl⟩
    · intro p hp; cases hp
    · intro c hc; cases hc
  | foreign m =>
    refine ⟨⟨h1, h2⟩, ?_⟩
    show AMap.get (AMap.set s.files m _) n = _
    rw [AMap.get_set, if_neg]
    rintro rfl
    exact he rfl

/-- **C133, the part that holds.** A file whose name does not begin with the configured path followed by a dot is neither written nor
removed. -/
theorem other_files_untouched_partial (date : Nat → Nat) (file : Bytes) (t : Nat) (files : AMap Bytes File) (plain : Bool) (es : List Ev)
    (n : Bytes) (hfar : (file ++ [46]).isPrefixOf n = false) (he : Ev.foreign n ∉ es) :
    AMap.get (run date file (start t files plain) es).files n = AMap.get files n := by
  suffices h : ∀ (es : List Ev) (s : St), Near file s → Ev.foreign n ∉ es → AMap.get (run date file s es).files n = AMap.get s.files n from
    h es (start t files plain) ⟨by simp [start], by simp [start]⟩ he
  intro es
  induction es with
  | nil => intro s _ _; rfl
  | cons e es ih =>
    intro s hs he
    obtain ⟨a, b⟩ := near_step (date := date) hs e n hfar (fun h => he (by simp [h]))
    exact (ih _ a (fun h => he (by simp [h]))).trans b

/-- **C133 is violated.** Someone keeps notes in `gt.log.notes`; a week later the log is rotated and they are gone. -/
theorem foreign_file_deleted : ∃ (es : List Ev) (n : Bytes) (date : Nat → Nat), (∀ d g, n ≠ name (ascii "gt.log") d g) ∧
    (∃ f, AMap.get (start 0 [(n, ⟨0, []⟩)] false).files n = some f) ∧
    AMap.get (run date (ascii "gt.log") (start 0 [(n, ⟨0, []⟩)] false) es).files n = none := by
  refine ⟨[.write 1 false true, .wait 604800, .write 2 false true, .unlink (ascii "gt.log.notes")], ascii "gt.log.notes",
    fun t => 20260101 + t / 86400, ?_, ⟨_, rfl⟩, by decide +kernel⟩
  intro d g h
  unfold name at h
  rw [List.append_assoc] at h
  have e : ascii "gt.log.notes" = ascii "gt.log" ++ (46 :: ascii "notes") := by decide +kernel
  rw [e] at h
  have h := List.append_cancel_left h
  simp only [List.cons_append, List.cons.injEq, true_and] at h
  have hl := congrArg List.head? h
  have : ∃ k, (fixed 8 d ++ (if g = 0 then [] else 46 :: dec g)).head? = some (digit k) := ⟨_, rfl⟩
  obtain ⟨k, hk⟩ := this
  rw [hk] at hl
  have h3 := digit_toNat k
  have e2 : (ascii "notes").head? = some 110 := by decide +kernel
  rw [e2] at hl
  rw [← Option.some.inj hl] at h3
  have : (110 : UInt8).toNat = 110 := rfl
  omega

/-- **C133 is violated.** What was logged to the configured path itself - by a shell redirection, by an older version - is gone with
the first line: the link takes its place. -/
theorem plain_file_replaced (date : Nat → Nat) (file : Bytes) (t : Nat) (files : AMap Bytes File) (x : Nat) (full : Bool) :
    (step date file (start t files true) (.write x full true)).plain = false := by
  simp only [step, getWriter, start, sizeRot]
  simp only [put, openFile, ite_true, ne_eq, reduceCtorEq, not_false_eq_true, Bool.false_eq_true, if_false]
  split
  · rfl
  · split <;> rfl

/-- And so it is with the count limit (C40): the notes are first in the order of names. -/
theorem foreign_file_deleted_by_count :
    ascii "gt.log.0-notes" ∈ RotateLogs.toUnlink 2 [name (ascii "gt.log") 20260101 0, name (ascii "gt.log") 20260102 0, ascii "gt.log.0-notes"] := by
  decide +kernel

/-! ### A concrete history -/

def exEs : List Ev :=
  [.write 1 false true, .foreign (ascii "gt.log.notes"), .wait 90000, .write 2 false true, .write 3 true true, .restart, .wait 518400,
   .write 4 false true, .write 5 true false, .unlink (name (ascii "gt.log") 20260101 0), .wait 80000, .write 6 true true]

theorem ex_calendar : Calendar (fun t => 20260101 + t / 86400) where
  mono := fun t t' h => by omega
  short := fun t t' h h' => by omega

/-- All hypotheses of `week_of_logs_kept` together: after a week the first line is gone, all others are there. -/
example : (AMap.keys ([(ascii "gt.log.old", ⟨7, []⟩)] : AMap Bytes File)).Nodup ∧ Apart (ascii "gt.log") exEs ∧
    Plausible (fun t => 20260101 + t / 86400) (ascii "gt.log") [(ascii "gt.log.old", ⟨7, []⟩)] ∧
    (run (fun t => 20260101 + t / 86400) (ascii "gt.log") (start 9 [(ascii "gt.log.old", ⟨7, []⟩)] true) exEs).log =
      [(1, 9), (2, 90009), (3, 90009), (4, 608409), (5, 608409), (6, 688409)] ∧
    (AMap.keys (run (fun t => 20260101 + t / 86400) (ascii "gt.log") (start 9 [(ascii "gt.log.old", ⟨7, []⟩)] true) exEs).files) =
      [ascii "gt.log.old", ascii "gt.log.notes", ascii "gt.log.20260102", ascii "gt.log.20260102.1",
       ascii "gt.log.20260108", ascii "gt.log.20260108.1", ascii "gt.log.20260108.2"] := by
  have hx : ∀ (q : Bytes) (b : UInt8), q.getLast? = some b → ¬ (48 ≤ b.toNat ∧ b.toNat ≤ 57) → ∀ d g, q ≠ name (ascii "gt.log") d g := by
    intro q b hq hb d g h
    obtain ⟨k, hk⟩ := name_last (ascii "gt.log") d g
    rw [h, hk] at hq
    have := digit_toNat k
    rw [Option.some.inj hq] at this
    omega
  have h1 := hx (ascii "gt.log.notes") 115 (by decide +kernel) (by decide)
  have h2 := hx (ascii "gt.log.old") 100 (by decide +kernel) (by decide)
  refine ⟨by decide, ?_, ?_, by decide +kernel, by decide +kernel⟩
  · intro n hn d g
    simp [exEs] at hn
    subst hn
    exact h1 d g
  · intro n f hf
    simp only [AMap.get] at hf
    split at hf
    · rename_i e
      have := Option.some.inj hf
      subst this e
      exact ⟨rfl, fun d g _ h => absurd h (h2 d g)⟩
    · cases hf

end Verif.Util.LogAge
