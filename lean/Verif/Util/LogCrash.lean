import Verif.Common
import Verif.AMap
set_option linter.unusedSimpArgs false
set_option linter.unusedVariables false
/-!
# C142: logging when the disk fails and when the program crashes
(libcs/logger/file-rotatelogs/rotatelogs.go:126-230 `Write`, `getWriter_nolock`, 280-333 `rotate_nolock`, 396-408 `Close`)

A log file is named by its day and its generation (`<path>.<day>`, `<path>.<day>.<generation>`; the names differ if these do, C40). Every
operation on the disk may fail, and the program may crash between any two of them. The purging of old files is left out (C40, C132).
-/
namespace Verif.Util.LogCrash
open Verif

/-- Day and generation. -/
abbrev Name := Nat × Nat

structure Disk where
  files : AMap Name Bytes := []
  /-- the files `<name>_lock` -/
  locks : List Name := []
  /-- the links `<name>_symlink` -/
  tmps : List Name := []
  /-- where the link `<path>` leads -/
  link : Option Name := none
deriving DecidableEq, Repr

/-- `RotateLogs` (libcs/logger/file-rotatelogs/rotatelogs.go:32-50): `outFh`, `curBaseFn`, `curFn`, `generation`. -/
structure Proc where
  out : Option Name := none
  base : Option Nat := none
  cur : Option Name := none
  gen : Nat := 0
deriving DecidableEq, Repr

structure St where
  disk : Disk := {}
  proc : Proc := {}
deriving DecidableEq, Repr

/-- What the world does during one `Write`: the day, whether the current file has reached its size, and which operations succeed;
`wr = some k`: writing fails after `k` bytes. -/
structure Env where
  day : Nat
  full : Bool := false
  mkdir : Bool := true
  openOk : Bool := true
  lock : Bool := true
  sym : Bool := true
  linkDir : Bool := true
  ren : Bool := true
  wr : Option Nat := none
deriving DecidableEq, Repr

/-- libcs/logger/file-rotatelogs/rotatelogs.go:181-194: the first free generation from `g` on; `f` bounds the search. -/
def findFree (files : AMap Name Bytes) (d : Nat) : Nat → Nat → Nat
  | 0, g => g
  | f + 1, g => if (d, g) ∈ AMap.keys files then findFree files d f (g + 1) else g

/-- libcs/logger/file-rotatelogs/rotatelogs.go:151-156: the current file is there and has reached its size. -/
def due (s : St) (e : Env) : Bool := e.full && (match s.proc.cur with | some n => decide (n ∈ AMap.keys s.disk.files) | none => false)

/-- libcs/logger/file-rotatelogs/rotatelogs.go:148-195: the file to be opened, or `none` if the current one is kept. -/
def choose (s : St) (e : Env) : Option Name :=
  if s.proc.base ≠ some e.day then
    if due s e then some (e.day, findFree s.disk.files e.day (s.disk.files.length + 1) 0) else some (e.day, 0)
  else if due s e then some (e.day, findFree s.disk.files e.day (s.disk.files.length + 1) (s.proc.gen + 1))
  else none

/-- libcs/logger/file-rotatelogs/rotatelogs.go:200-203 `OpenFile` with `O_CREATE|O_APPEND`. -/
def create (D : Disk) (n : Name) : Disk :=
  if n ∈ AMap.keys D.files then D else { D with files := D.files.set n [] }

/-- libcs/logger/file-rotatelogs/rotatelogs.go:280-333 `rotate_nolock` up to the purging: the states of the disk it goes through. -/
def rotStages (e : Env) (D : Disk) (n : Name) : List Disk :=
  if e.lock = false ∨ n ∈ D.locks then [D]
  else
    let D1 := { D with locks := n :: D.locks }
    if e.sym = false ∨ n ∈ D.tmps then [D, D1, D]
    else
      let D2 := { D1 with tmps := n :: D.tmps }
      if e.linkDir = false ∨ e.ren = false then [D, D1, D2, { D2 with locks := D.locks }]
      else
        let D3 := { D1 with link := some n }
        [D, D1, D2, D3, { D3 with locks := D.locks }]

def rotated (e : Env) (D : Disk) (n : Name) : Disk := (rotStages e D n).getLast?.getD D

def append (D : Disk) (n : Name) (x : Bytes) : Disk := { D with files := D.files.set n ((D.files.get n).getD [] ++ x) }

/-- libcs/logger/file-rotatelogs/rotatelogs.go:126-139 `Write`: whether it reports success. `out.Write` on a closed log fails. -/
def write (s : St) (e : Env) (x : Bytes) : Bool × St :=
  match choose s e with
  | none =>
    match s.proc.out, e.wr with
    | none, _ => (false, s)
    | some n, none => (true, { s with disk := append s.disk n x })
    | some n, some k => (false, { s with disk := append s.disk n (x.take k) })
  | some n =>
    if e.mkdir = false ∨ e.openOk = false then (false, s)
    else
      let D := rotated e (create s.disk n) n
      let p : Proc := ⟨some n, some e.day, some n, n.2⟩
      match e.wr with
      | none => (true, ⟨append D n x, p⟩)
      | some k => (false, ⟨append D n (x.take k), p⟩)

/-- What is on the disk if the program crashes at point `k` of a `Write`; at the last one `j` bytes of the line have been written. -/
def crashDisk (s : St) (e : Env) (x : Bytes) (k j : Nat) : Disk :=
  match choose s e with
  | none => if k = 0 then s.disk else match s.proc.out with | none => s.disk | some n => append s.disk n (x.take j)
  | some n =>
    if e.mkdir = false ∨ e.openOk = false ∨ k = 0 then s.disk
    else
      match (rotStages e (create s.disk n) n)[k - 1]? with
      | some D => D
      | none => append (rotated e (create s.disk n) n) n (x.take j)

inductive Ev where
  | write (e : Env) (x : Bytes)
  /-- the program crashes while writing, and is started again -/
  | crash (e : Env) (x : Bytes) (k j : Nat)
  /-- the program ends and is started again -/
  | restart
  /-- libcs/logger/file-rotatelogs/rotatelogs.go:396-408 -/
  | close
deriving DecidableEq, Repr

def step (s : St) : Ev → St
  | .write e x => (write s e x).2
  | .crash e x k j => ⟨crashDisk s e x k j, {}⟩
  | .restart => { s with proc := {} }
  | .close => { s with proc := { s.proc with out := none } }

def run (s : St) : List Ev → St
  | [] => s
  | e :: es => run (step s e) es

/-! ## Specification -/

/-- What file `n` holds; a file that is not there holds nothing. -/
def content (s : St) (n : Name) : Bytes := (s.disk.files.get n).getD []

/-- The disk does what it is asked to. -/
def Works (e : Env) : Prop := e.mkdir = true ∧ e.openOk = true ∧ e.wr = none

/-- Nothing at all fails. -/
def AllWell (e : Env) : Prop := Works e ∧ e.lock = true ∧ e.sym = true ∧ e.linkDir = true ∧ e.ren = true

/-! ## Lemmas -/

theorem append_content (D : Disk) (n m : Name) (x : Bytes) :
    ((append D n x).files.get m).getD [] = if m = n then (D.files.get n).getD [] ++ x else (D.files.get m).getD [] := by
  unfold append
  rw [AMap.get_set]
  by_cases h : n = m
  · rw [if_pos h, if_pos h.symm]; rfl
  · rw [if_neg h, if_neg (fun e => h e.symm)]

theorem create_content (D : Disk) (n m : Name) : ((create D n).files.get m).getD [] = (D.files.get m).getD [] := by
  unfold create
  split
  · rfl
  · rename_i h
    dsimp only
    rw [AMap.get_set]
    split
    · rename_i hm
      subst hm
      rw [(AMap.get_eq_none_iff D.files n).mpr h]
      rfl
    · rfl

theorem stages_files (e : Env) (D : Disk) (n : Name) : ∀ D' ∈ rotStages e D n, D'.files = D.files := by
  intro D' h
  unfold rotStages at h
  split at h
  · simp at h; rw [h]
  · split at h
    · simp at h; rcases h with rfl | rfl | rfl <;> rfl
    · split at h
      · simp at h; rcases h with rfl | rfl | rfl | rfl <;> rfl
      · simp at h; rcases h with rfl | rfl | rfl | rfl | rfl <;> rfl

theorem rotated_mem (e : Env) (D : Disk) (n : Name) : rotated e D n ∈ rotStages e D n := by
  unfold rotated
  have hne : rotStages e D n ≠ [] := by
    unfold rotStages
    split
    · simp
    · split
      · simp
      · split <;> simp
  rw [List.getLast?_eq_some_getLast hne]
  exact List.getLast_mem hne

theorem rotated_files (e : Env) (D : Disk) (n : Name) : (rotated e D n).files = D.files := stages_files e D n _ (rotated_mem e D n)

/-- A failed or a successful `Write` adds the first bytes of the line to one file at most; a crash likewise. -/
theorem crash_content (s : St) (e : Env) (x : Bytes) (k j : Nat) (n : Name) :
    ∃ y, (((crashDisk s e x k j).files.get n).getD [] = content s n ++ y) ∧ ∃ i, y = x.take i := by
  have nil : ∃ y, content s n = content s n ++ y ∧ ∃ i, y = x.take i := ⟨[], by simp, 0, by simp⟩
  unfold crashDisk
  split
  · split
    · exact nil
    · split
      · exact nil
      · rename_i m _
        rw [append_content]
        by_cases h : n = m
        · rw [if_pos h, h]; exact ⟨x.take j, rfl, j, rfl⟩
        · rw [if_neg h]; exact nil
  · rename_i m _
    split
    · exact nil
    · split
      · rename_i D hD
        have := stages_files e _ m D (List.mem_of_getElem? hD)
        rw [this, create_content]
        exact nil
      · rw [append_content, rotated_files]
        by_cases h : n = m
        · rw [if_pos h, h, create_content]; exact ⟨x.take j, rfl, j, rfl⟩
        · rw [if_neg h, create_content]; exact nil

theorem write_content (s : St) (e : Env) (x : Bytes) (n : Name) :
    ∃ y, content (write s e x).2 n = content s n ++ y ∧ ∃ i, y = x.take i := by
  have nil : ∃ y, content s n = content s n ++ y ∧ ∃ i, y = x.take i := ⟨[], by simp, 0, by simp⟩
  have full : ∃ i, x = x.take i := ⟨x.length, by simp⟩
  unfold write
  split
  · split
    · exact nil
    · rename_i m _ _
      unfold content at *
      dsimp only
      rw [append_content]
      by_cases h : n = m
      · rw [if_pos h, h]; exact ⟨x, rfl, full⟩
      · rw [if_neg h]; exact nil
    · rename_i m k _ _
      unfold content at *
      dsimp only
      rw [append_content]
      by_cases h : n = m
      · rw [if_pos h, h]; exact ⟨x.take k, rfl, k, rfl⟩
      · rw [if_neg h]; exact nil
  · rename_i m _
    split
    · exact nil
    · unfold content at *
      split
      · dsimp only
        rw [append_content, rotated_files]
        by_cases h : n = m
        · rw [if_pos h, h, create_content]; exact ⟨x, rfl, full⟩
        · rw [if_neg h, create_content]; exact nil
      · rename_i k _
        dsimp only
        rw [append_content, rotated_files]
        by_cases h : n = m
        · rw [if_pos h, h, create_content]; exact ⟨x.take k, rfl, k, rfl⟩
        · rw [if_neg h, create_content]; exact nil

/-- The open file is the current one, and one of the current day. -/
structure Inv (s : St) : Prop where
  same : ∀ n, s.proc.out = some n → s.proc.base = some n.1 ∧ s.proc.cur = some n
  bc : ∀ d, s.proc.base = some d → ∃ g, s.proc.cur = some (d, g)
  has : ∀ n, s.proc.cur = some n → n ∈ AMap.keys s.disk.files

/-- In the same process the log has not been closed. -/
def Open (s : St) : Prop := ∀ d, s.proc.base = some d → ∃ n, s.proc.out = some n

theorem keys_append (D : Disk) (n m : Name) (x : Bytes) (h : m ∈ AMap.keys D.files ∨ m = n) : m ∈ AMap.keys (append D n x).files := by
  unfold append
  refine Classical.byContradiction fun hc => ?_
  have := (AMap.get_eq_none_iff _ m).mpr hc
  rw [AMap.get_set] at this
  by_cases h' : n = m
  · rw [if_pos h'] at this; cases this
  · rw [if_neg h'] at this
    rcases h with h | h
    · exact (AMap.get_eq_none_iff _ m).mp this h
    · exact h' h.symm

theorem findFree_ge (files : AMap Name Bytes) (d : Nat) : ∀ f g, g ≤ findFree files d f g := by
  intro f
  induction f with
  | zero => exact fun g => Nat.le_refl _
  | succ f ih =>
    intro g
    rw [findFree]
    split
    · have := ih (g + 1); omega
    · exact Nat.le_refl _

theorem findFree_taken (files : AMap Name Bytes) (d : Nat) : ∀ f g, (d, findFree files d f g) ∈ AMap.keys files →
    ∀ i, i ≤ f → (d, g + i) ∈ AMap.keys files := by
  intro f
  induction f with
  | zero => intro g h i hi; rw [show g + i = g by omega]; exact h
  | succ f ih =>
    intro g h i hi
    rw [findFree] at h
    split at h
    · rename_i hg
      cases i with
      | zero => exact hg
      | succ i => have := ih (g + 1) h i (by omega); rw [show g + (i + 1) = g + 1 + i by omega]; exact this
    · rename_i hg; exact absurd h hg

theorem findFree_free (files : AMap Name Bytes) (d g : Nat) : (d, findFree files d (files.length + 1) g) ∉ AMap.keys files := by
  intro h
  have ht := findFree_taken files d _ g h
  have hnd : ((List.range (files.length + 2)).map fun i => (d, g + i)).Nodup := by
    rw [List.nodup_iff_pairwise_ne, List.pairwise_map]
    refine List.Pairwise.imp ?_ List.pairwise_lt_range
    intro a b hab he
    have := (Prod.mk.inj he).2
    omega
  have := List.Nodup.length_le_of_subset hnd (l₂ := AMap.keys files) (by
    intro n hn
    obtain ⟨i, hi, rfl⟩ := List.mem_map.mp hn
    exact ht i (by have := List.mem_range.mp hi; omega))
  simp [AMap.keys] at this
  omega

theorem choose_day (s : St) (e : Env) (n : Name) (h : choose s e = some n) : n.1 = e.day := by
  unfold choose at h
  split at h
  · split at h <;> (cases h; rfl)
  · split at h
    · cases h; rfl
    · cases h

theorem choose_none (s : St) (e : Env) (h : choose s e = none) : s.proc.base = some e.day := by
  unfold choose at h
  split at h
  · split at h <;> cases h
  · rename_i hb; simpa using hb

theorem inv_write (s : St) (e : Env) (x : Bytes) (hs : Inv s) : Inv (write s e x).2 := by
  unfold write
  split
  · split
    · exact hs
    · exact ⟨hs.same, hs.bc, fun n h => keys_append _ _ _ _ (Or.inl (hs.has n h))⟩
    · exact ⟨hs.same, hs.bc, fun n h => keys_append _ _ _ _ (Or.inl (hs.has n h))⟩
  · rename_i m hm
    split
    · exact hs
    · have hd := choose_day s e m hm
      split
      · refine ⟨?_, ?_, ?_⟩
        · intro n h; cases h; exact ⟨by rw [hd], rfl⟩
        · intro d h; cases h; exact ⟨m.2, by rw [← hd]⟩
        · intro n h; cases h; exact keys_append _ _ _ _ (Or.inr rfl)
      · refine ⟨?_, ?_, ?_⟩
        · intro n h; cases h; exact ⟨by rw [hd], rfl⟩
        · intro d h; cases h; exact ⟨m.2, by rw [← hd]⟩
        · intro n h; cases h; exact keys_append _ _ _ _ (Or.inr rfl)

theorem inv_step (s : St) (ev : Ev) (hs : Inv s) : Inv (step s ev) := by
  cases ev with
  | write e x => exact inv_write s e x hs
  | crash e x k j => exact ⟨(by intro n h; cases h), (by intro n h; cases h), (by intro n h; cases h)⟩
  | restart => exact ⟨(by intro n h; cases h), (by intro n h; cases h), (by intro n h; cases h)⟩
  | close => exact ⟨(by intro n h; cases h), hs.bc, hs.has⟩

theorem inv_run (es : List Ev) : ∀ s, Inv s → Inv (run s es) := by
  induction es with
  | nil => exact fun s h => h
  | cons e es ih => exact fun s h => ih _ (inv_step s e h)

theorem inv_start (D : Disk) : Inv ⟨D, {}⟩ := ⟨(by intro n h; cases h), (by intro n h; cases h), (by intro n h; cases h)⟩

theorem open_write (s : St) (e : Env) (x : Bytes) (h : Open s) : Open (write s e x).2 := by
  unfold write
  split
  · split
    · exact h
    · exact h
    · exact h
  · split
    · exact h
    · split
      · exact fun d _ => ⟨_, rfl⟩
      · exact fun d _ => ⟨_, rfl⟩

theorem open_run (es : List Ev) : ∀ s, Open s → Ev.close ∉ es → Open (run s es) := by
  induction es with
  | nil => exact fun s h _ => h
  | cons e es ih =>
    intro s h hc
    refine ih _ ?_ (fun h' => hc (List.mem_cons_of_mem _ h'))
    cases e with
    | write e x => exact open_write s e x h
    | crash e x k j => exact fun d h => by cases h
    | restart => exact fun d h => by cases h
    | close => exact absurd List.mem_cons_self hc

/-! ## C142 -/

/-- Whatever fails, and wherever the program crashes: no log file loses a byte of what it holds (the purging of old files apart). -/
theorem files_only_grow (es : List Ev) (s : St) (n : Name) : ∃ y, content (run s es) n = content s n ++ y := by
  induction es generalizing s with
  | nil => exact ⟨[], by simp [run]⟩
  | cons ev es ih =>
    obtain ⟨y, hy⟩ := ih (step s ev)
    have h1 : ∃ z, content (step s ev) n = content s n ++ z := by
      cases ev with
      | write e x => obtain ⟨z, h, _⟩ := write_content s e x n; exact ⟨z, h⟩
      | crash e x k j => obtain ⟨z, h, _⟩ := crash_content s e x k j n; exact ⟨z, h⟩
      | restart => exact ⟨[], by simp [step, content]⟩
      | close => exact ⟨[], by simp [step, content]⟩
    obtain ⟨z, hz⟩ := h1
    exact ⟨z ++ y, by rw [run, hy, hz, List.append_assoc]⟩

/-- A write that reports success has put the line, whole and once, at the end of a file of the day of the write, and nothing anywhere else:
after every history, on whatever disk.
C142. Missing from the claim: that lines are never lost while a file is open, and the link after a crash: both false (`lines_lost_although_a_file_is_open`, `link_stuck_after_a_crash`). -/
theorem success_is_one_line_partial (D : Disk) (es : List Ev) (e : Env) (x : Bytes) (s : St) (hs : s = run ⟨D, {}⟩ es)
    (h : (write s e x).1 = true) :
    ∃ g, ∀ n, content (write s e x).2 n = if n = (e.day, g) then content s n ++ x else content s n := by
  have hi : Inv s := hs ▸ inv_run es _ (inv_start D)
  have key : ∃ m : Name, m.1 = e.day ∧ ∀ n, content (write s e x).2 n = if n = m then content s n ++ x else content s n := by
    unfold write at h ⊢
    cases hc : choose s e with
    | none =>
      rw [hc] at h
      dsimp only at h ⊢
      cases ho : s.proc.out with
      | none => rw [ho] at h; cases h
      | some m =>
        cases hw : e.wr with
        | some k => rw [ho, hw] at h; cases h
        | none =>
          refine ⟨m, ?_, fun n => ?_⟩
          · have h1 := (hi.same m ho).1
            rw [choose_none s e hc] at h1
            exact (Option.some.inj h1).symm
          · dsimp only
            unfold content
            dsimp only
            rw [append_content]
            by_cases hn : n = m
            · rw [if_pos hn, if_pos hn, hn]
            · rw [if_neg hn, if_neg hn]
    | some m =>
      rw [hc] at h
      dsimp only at h ⊢
      by_cases hok : e.mkdir = false ∨ e.openOk = false
      · rw [if_pos hok] at h; cases h
      · rw [if_neg hok] at h ⊢
        cases hw : e.wr with
        | some k => rw [hw] at h; cases h
        | none =>
          refine ⟨m, choose_day s e m hc, fun n => ?_⟩
          dsimp only
          unfold content
          dsimp only
          rw [append_content, rotated_files]
          by_cases hn : n = m
          · rw [if_pos hn, if_pos hn, hn, create_content]
          · rw [if_neg hn, if_neg hn, create_content]
  obtain ⟨m, hm, h'⟩ := key
  refine ⟨m.2, fun n => ?_⟩
  rw [h' n]
  have : m = (e.day, m.2) := by rw [← hm]
  rw [← this]

/-- When the current file has reached its size, a successful write puts its line into a file that was not there before. -/
theorem full_file_is_left (D : Disk) (es : List Ev) (e : Env) (x : Bytes) (s : St) (hs : s = run ⟨D, {}⟩ es)
    (h : (write s e x).1 = true) (hf : e.full = true) (n : Name) (hn : s.proc.out = some n) :
    ∃ m, s.disk.files.get m = none ∧ (write s e x).2.disk.files.get m = some x := by
  have hi : Inv s := hs ▸ inv_run es _ (inv_start D)
  have hcur := (hi.same n hn).2
  have hdue : due s e = true := by
    unfold due
    rw [hf, hcur]
    simpa using hi.has n hcur
  have hch : ∃ m, choose s e = some m ∧ m ∉ AMap.keys s.disk.files := by
    unfold choose
    rw [hdue]
    split
    · exact ⟨_, rfl, findFree_free _ _ _⟩
    · exact ⟨_, rfl, findFree_free _ _ _⟩
  obtain ⟨m, hm, hm'⟩ := hch
  have hnone := (AMap.get_eq_none_iff s.disk.files m).mpr hm'
  refine ⟨m, hnone, ?_⟩
  unfold write at h ⊢
  rw [hm] at h ⊢
  dsimp only at h ⊢
  split at h
  · cases h
  · rename_i hok
    rw [if_neg hok]
    split at h
    · dsimp only
      unfold append
      dsimp only
      rw [AMap.get_set, if_pos rfl, rotated_files, create_content, hnone]
      rfl
    · cases h

/-- A write that reports an error, or during which the program crashes, has put a beginning of the line (nothing, perhaps) at the end of
one file at most, and nothing anywhere else. -/
theorem failure_is_a_beginning (s : St) (e : Env) (x : Bytes) (k j : Nat) (n : Name) :
    (∃ i, content (step s (.write e x)) n = content s n ++ x.take i) ∧ (∃ i, content (step s (.crash e x k j)) n = content s n ++ x.take i) := by
  obtain ⟨y, h, i, rfl⟩ := write_content s e x n
  obtain ⟨z, h', i', rfl⟩ := crash_content s e x k j n
  exact ⟨⟨i, h⟩, ⟨i', h'⟩⟩

/-- **Logging resumes.** After any failures, crashes and restarts, on whatever disk (with whatever left-over files), as long as the log is
not closed: when the disk works again the next write succeeds. -/
theorem logging_resumes (D : Disk) (es : List Ev) (hc : Ev.close ∉ es) (e : Env) (x : Bytes) (he : Works e) :
    (write (run ⟨D, {}⟩ es) e x).1 = true := by
  have ho : Open (run ⟨D, {}⟩ es) := open_run es _ (by intro d h; cases h) hc
  obtain ⟨h1, h2, h3⟩ := he
  unfold write
  split
  · rename_i hn
    obtain ⟨m, hm⟩ := ho _ (choose_none _ _ hn)
    rw [hm, h3]
  · rw [if_neg (by simp [h1, h2]), h3]

theorem rotated_well (e : Env) (D : Disk) (n : Name) (he : AllWell e) (h1 : n ∉ D.locks) (h2 : n ∉ D.tmps) :
    rotated e D n = { D with link := some n } := by
  obtain ⟨-, hl, hs, hd, hr⟩ := he
  unfold rotated rotStages
  rw [if_neg (by simp [hl, h1]), if_neg (by simp [hs, h2]), if_neg (by simp [hd, hr])]
  rfl

/-- The writes of a program that does not crash, on a disk on which nothing fails. -/
def Calm (es : List Ev) : Prop := ∀ ev ∈ es, (∃ e x, ev = .write e x ∧ AllWell e) ∨ ev = .restart

structure Clean (s : St) : Prop where
  locks : s.disk.locks = []
  tmps : s.disk.tmps = []
  link : ∀ n, s.proc.out = some n → s.disk.link = some n

theorem create_rest (D : Disk) (n : Name) : (create D n).locks = D.locks ∧ (create D n).tmps = D.tmps ∧ (create D n).link = D.link := by
  unfold create
  split <;> exact ⟨rfl, rfl, rfl⟩

theorem clean_write (s : St) (e : Env) (x : Bytes) (h : Clean s) (he : AllWell e) : Clean (write s e x).2 := by
  unfold write
  split
  · split
    · exact h
    · exact ⟨h.locks, h.tmps, h.link⟩
    · exact ⟨h.locks, h.tmps, h.link⟩
  · rename_i m _
    split
    · exact h
    · obtain ⟨c1, c2, c3⟩ := create_rest s.disk m
      have hr := rotated_well e (create s.disk m) m he (by rw [c1, h.locks]; simp) (by rw [c2, h.tmps]; simp)
      rw [hr]
      split
      · exact ⟨by simp [append, c1, h.locks], by simp [append, c2, h.tmps], by intro n hn; cases hn; rfl⟩
      · exact ⟨by simp [append, c1, h.locks], by simp [append, c2, h.tmps], by intro n hn; cases hn; rfl⟩

theorem clean_run (es : List Ev) : ∀ s, Clean s → Calm es → Clean (run s es) := by
  induction es with
  | nil => exact fun s h _ => h
  | cons ev es ih =>
    intro s h hc
    refine ih _ ?_ (fun a ha => hc a (List.mem_cons_of_mem _ ha))
    rcases hc ev List.mem_cons_self with ⟨e, x, rfl, he⟩ | rfl
    · exact clean_write s e x h he
    · exact ⟨h.locks, h.tmps, by intro n hn; cases hn⟩

/-- Without failures and crashes the link `<path>` leads, after every successful write, to the file that has the line, and no left-over
files accumulate. -/
theorem link_leads_to_the_line (D : Disk) (hl : D.locks = []) (ht : D.tmps = []) (es : List Ev) (hc : Calm es) (e : Env) (he : AllWell e)
    (x : Bytes) (s t : St) (hs : s = run ⟨D, {}⟩ es) (hst : t = (write s e x).2) :
    t.disk.locks = [] ∧ t.disk.tmps = [] ∧
    ∃ n, t.disk.link = some n ∧ n.1 = e.day ∧ content t n = content s n ++ x := by
  have h0 : Clean s := hs ▸ clean_run es _ ⟨hl, ht, by intro n hn; cases hn⟩ hc
  have h1 : Clean t := hst ▸ clean_write s e x h0 he
  have hi : Inv s := hs ▸ inv_run es _ (inv_start D)
  have hnc : Ev.close ∉ es := fun h => by
    rcases hc _ h with ⟨_, _, h', _⟩ | h' <;> cases h'
  have ho : Open s := hs ▸ open_run es _ (by intro d h; cases h) hnc
  refine ⟨h1.locks, h1.tmps, ?_⟩
  obtain ⟨⟨w1, w2, w3⟩, -⟩ := he
  have key : ∃ n, t.proc.out = some n ∧ n.1 = e.day ∧ content t n = content s n ++ x := by
    subst hst
    unfold write
    split
    · rename_i hn
      obtain ⟨m, hm⟩ := ho _ (choose_none _ _ hn)
      rw [w3]
      rw [hm]
      refine ⟨m, hm, ?_, ?_⟩
      · have hb := (hi.same m hm).1
        rw [choose_none s e hn] at hb
        exact (Option.some.inj hb).symm
      · unfold content
        dsimp only
        rw [append_content, if_pos rfl]
    · rename_i m hn
      rw [if_neg (by simp [w1, w2]), w3]
      refine ⟨m, rfl, choose_day s e m hn, ?_⟩
      unfold content
      dsimp only
      rw [append_content, if_pos rfl, rotated_files, create_content]
  obtain ⟨n, k1, k2, k3⟩ := key
  exact ⟨n, h1.link n k1, k2, k3⟩

/-- A new file of the same day has a later generation than the one it replaces; the first file of another day is the one without a
number, if that is free. -/
theorem generations_go_up (s : St) (hs : ∀ n, s.proc.cur = some n → s.proc.gen = n.2) (e : Env) (n m : Name) (hn : s.proc.cur = some n)
    (hc : choose s e = some m) :
    (s.proc.base = some e.day → n.2 < m.2) ∧
    (s.proc.base ≠ some e.day → (e.day, 0) ∉ AMap.keys s.disk.files → m = (e.day, 0)) := by
  unfold choose at hc
  constructor
  · intro hb
    rw [if_neg (by simp [hb])] at hc
    split at hc
    · cases hc
      have := findFree_ge s.disk.files e.day (s.disk.files.length + 1) (s.proc.gen + 1)
      have := hs n hn
      dsimp only
      omega
    · cases hc
  · intro hb hf
    rw [if_pos hb] at hc
    split at hc
    · cases hc
      rw [findFree, if_neg hf]
    · cases hc; rfl

theorem gen_run (es : List Ev) : ∀ s : St, (∀ n, s.proc.cur = some n → s.proc.gen = n.2) →
    ∀ n, (run s es).proc.cur = some n → (run s es).proc.gen = n.2 := by
  induction es with
  | nil => exact fun s h => h
  | cons ev es ih =>
    intro s h
    refine ih (step s ev) ?_
    cases ev with
    | write e x =>
      show ∀ n, (write s e x).2.proc.cur = some n → (write s e x).2.proc.gen = n.2
      unfold write
      split
      · split <;> exact h
      · split
        · exact h
        · split
          · intro n hn; cases hn; rfl
          · intro n hn; cases hn; rfl
    | crash e x k j => intro n hn; cases hn
    | restart => intro n hn; cases hn
    | close => exact h

/-- The hypothesis of `generations_go_up` holds after every history. -/
theorem gen_of_cur (D : Disk) (es : List Ev) : ∀ n, (run ⟨D, {}⟩ es).proc.cur = some n → (run ⟨D, {}⟩ es).proc.gen = n.2 :=
  gen_run es _ (by intro n hn; cases hn)

theorem rotated_rest (e : Env) (D : Disk) (n : Name) : (rotated e D n).locks = D.locks ∧
    ((rotated e D n).link = some n ∨ (rotated e D n).link = D.link) ∧
    (e.lock = false ∨ e.sym = false ∨ e.linkDir = false ∨ e.ren = false → (rotated e D n).link = D.link) := by
  unfold rotated rotStages
  by_cases h1 : e.lock = false ∨ n ∈ D.locks
  · rw [if_pos h1]; exact ⟨rfl, Or.inr rfl, fun _ => rfl⟩
  · rw [if_neg h1]
    by_cases h2 : e.sym = false ∨ n ∈ D.tmps
    · rw [if_pos h2]; exact ⟨rfl, Or.inr rfl, fun _ => rfl⟩
    · rw [if_neg h2]
      by_cases h3 : e.linkDir = false ∨ e.ren = false
      · rw [if_pos h3]; exact ⟨rfl, Or.inr rfl, fun _ => rfl⟩
      · rw [if_neg h3]
        refine ⟨rfl, Or.inl rfl, ?_⟩
        rintro (h | h | h)
        · exact absurd (Or.inl h) h1
        · exact absurd (Or.inl h) h2
        · exact absurd h h3

theorem write_rest (s : St) (e : Env) (x : Bytes) : (write s e x).2.disk.locks = s.disk.locks ∧
    (e.lock = false ∨ e.sym = false ∨ e.linkDir = false ∨ e.ren = false → (write s e x).2.disk.link = s.disk.link) := by
  unfold write
  split
  · split <;> exact ⟨rfl, fun _ => rfl⟩
  · rename_i m _
    obtain ⟨c1, c2, c3⟩ := create_rest s.disk m
    obtain ⟨r1, -, r3⟩ := rotated_rest e (create s.disk m) m
    split
    · exact ⟨rfl, fun _ => rfl⟩
    · split
      · exact ⟨r1.trans c1, fun h => (r3 h).trans c3⟩
      · exact ⟨r1.trans c1, fun h => (r3 h).trans c3⟩

/-- Lock files are left behind by crashes only; and a link that cannot be moved stays where it was (it is never lost). -/
theorem locks_left_by_crashes_only (es : List Ev) (h : ∀ e x k j, Ev.crash e x k j ∉ es) (s : St) :
    (run s es).disk.locks = s.disk.locks := by
  induction es generalizing s with
  | nil => rfl
  | cons ev es ih =>
    rw [run, ih (fun e x k j hm => h e x k j (List.mem_cons_of_mem _ hm))]
    cases ev with
    | write e x => exact (write_rest s e x).1
    | crash e x k j => exact absurd List.mem_cons_self (h e x k j)
    | restart => rfl
    | close => rfl

theorem link_kept_on_failure (s : St) (e : Env) (x : Bytes)
    (h : e.lock = false ∨ e.sym = false ∨ e.linkDir = false ∨ e.ren = false) : (write s e x).2.disk.link = s.disk.link := (write_rest s e x).2 h

/-! ### What does not hold -/

/-- (violation) While a new file cannot be opened (the directory is not writable any more, the limit of open files is reached), every line of
the new day is lost, although the file of the day before is still open and could take it. -/
theorem lines_lost_although_a_file_is_open (d : Nat) (xs : List Bytes) (p : Proc) (D : Disk) (hp : p = ⟨some (d, 0), some d, some (d, 0), 0⟩) :
    run ⟨D, p⟩ (xs.map fun x => .write { day := d + 1, openOk := false } x) = ⟨D, p⟩ := by
  have one : ∀ x, (write ⟨D, p⟩ { day := d + 1, openOk := false } x).2 = ⟨D, p⟩ := by
    intro x
    unfold write
    split
    · rename_i h
      have := choose_none _ _ h
      rw [hp] at this
      simp at this
    · rfl
  induction xs with
  | nil => rfl
  | cons x xs ih =>
    rw [List.map_cons, run]
    show run (write ⟨D, p⟩ _ x).2 _ = _
    rw [one x]
    exact ih

theorem rotated_stale (e : Env) (D : Disk) (n : Name) (h : n ∈ D.locks ∨ n ∈ D.tmps) : rotated e D n = D := by
  unfold rotated rotStages
  split
  · rfl
  · rename_i hl
    rw [if_pos]
    · rfl
    · rcases h with h | h
      · exact absurd (Or.inr h) hl
      · exact Or.inr h

/-- Writes and restarts of one day that do not fill the file. -/
def OneDay (d : Nat) (es : List Ev) : Prop := ∀ ev ∈ es, (∃ e x, ev = .write e x ∧ e.day = d ∧ e.full = false) ∨ ev = .restart

theorem stale_run (d : Nat) (es : List Ev) : ∀ s, ((d, 0) ∈ s.disk.locks ∨ (d, 0) ∈ s.disk.tmps) → OneDay d es →
    (run s es).disk.link = s.disk.link ∧ (run s es).disk.locks = s.disk.locks ∧ (run s es).disk.tmps = s.disk.tmps := by
  induction es with
  | nil => exact fun s _ _ => ⟨rfl, rfl, rfl⟩
  | cons ev es ih =>
    intro s h hc
    have h1 : (step s ev).disk.link = s.disk.link ∧ (step s ev).disk.locks = s.disk.locks ∧ (step s ev).disk.tmps = s.disk.tmps := by
      rcases hc ev List.mem_cons_self with ⟨e, x, rfl, hd, hf⟩ | rfl
      · show (write s e x).2.disk.link = _ ∧ (write s e x).2.disk.locks = _ ∧ (write s e x).2.disk.tmps = _
        unfold write
        split
        · split <;> exact ⟨rfl, rfl, rfl⟩
        · rename_i m hm
          have hm0 : m = (d, 0) := by
            unfold choose due at hm
            rw [hf, hd] at hm
            simp only [Bool.false_and, Bool.false_eq_true, if_false] at hm
            split at hm
            · cases hm; rfl
            · cases hm
          subst hm0
          obtain ⟨c1, c2, c3⟩ := create_rest s.disk (d, 0)
          split
          · exact ⟨rfl, rfl, rfl⟩
          · rw [rotated_stale e _ _ (by rw [c1, c2]; exact h)]
            split
            · exact ⟨c3, c1, c2⟩
            · exact ⟨c3, c1, c2⟩
      · exact ⟨rfl, rfl, rfl⟩
    obtain ⟨a, b, c⟩ := h1
    obtain ⟨a', b', c'⟩ := ih (step s ev) (by rw [b, c]; exact h) (fun k hk => hc k (List.mem_cons_of_mem _ hk))
    exact ⟨by rw [run, a', a], by rw [run, b', b], by rw [run, c', c]⟩

/-- (violation) If the program crashes while it opens the day's file, after it has made `<file>_lock` (or `<file>_symlink`), then nothing that
is done that day, by this program or by any later one, moves the link `<path>`: who follows the log through the link sees nothing of that
day, although every write reports success. -/
theorem link_stuck_after_a_crash (D : Disk) (d : Nat) (e : Env) (x : Bytes) (j k : Nat) (he : AllWell e) (hd : e.day = d) (hf : e.full = false)
    (hl : (d, 0) ∉ D.locks) (ht : (d, 0) ∉ D.tmps) (hk : k = 2 ∨ k = 3) (es : List Ev) (hes : OneDay d es) :
    (run (step ⟨D, {}⟩ (.crash e x k j)) es).disk.link = D.link := by
  have hch : choose ⟨D, {}⟩ e = some (d, 0) := by
    unfold choose due
    rw [hf, hd]
    simp
  obtain ⟨⟨w1, w2, w3⟩, l1, l2, l3, l4⟩ := he
  obtain ⟨c1, c2, c3⟩ := create_rest D (d, 0)
  have hst : rotStages e (create D (d, 0)) (d, 0) =
      [create D (d, 0), { create D (d, 0) with locks := (d, 0) :: D.locks },
       { create D (d, 0) with locks := (d, 0) :: D.locks, tmps := (d, 0) :: D.tmps },
       { create D (d, 0) with locks := (d, 0) :: D.locks, link := some (d, 0) },
       { create D (d, 0) with link := some (d, 0) }] := by
    unfold rotStages
    rw [if_neg (by simp [l1, c1, hl]), if_neg (by simp [l2, c2, ht]), if_neg (by simp [l3, l4]), c1, c2]
    simp [c1, c2]
  have hD : ∃ D', (step ⟨D, {}⟩ (.crash e x k j)) = ⟨D', {}⟩ ∧ D'.link = D.link ∧ (d, 0) ∈ D'.locks := by
    refine ⟨_, rfl, ?_⟩
    unfold crashDisk
    rw [hch]
    dsimp only
    rcases hk with rfl | rfl
    · rw [if_neg (by simp [w1, w2]), hst]
      exact ⟨c3, List.mem_cons_self⟩
    · rw [if_neg (by simp [w1, w2]), hst]
      exact ⟨c3, List.mem_cons_self⟩
  obtain ⟨D', h1, h2, h3⟩ := hD
  rw [h1, (stale_run d es ⟨D', {}⟩ (Or.inl h3) hes).1]
  exact h2

/-- (violation) A program that is started again writes to the first file of the day, although files of later generations have been written
already, and even if that file has reached its size: the lines are not in the order of the files. -/
theorem restart_goes_back (s : St) (e : Env) (x : Bytes) (he : Works e) (n : Name) :
    content (run s [.restart, .write e x]) n = if n = (e.day, 0) then content s n ++ x else content s n := by
  have hch : choose ⟨s.disk, {}⟩ e = some (e.day, 0) := by
    simp [choose, due]
  obtain ⟨w1, w2, w3⟩ := he
  show content (write ⟨s.disk, {}⟩ e x).2 n = _
  unfold write
  rw [hch]
  dsimp only
  rw [if_neg (by simp [w1, w2]), w3]
  unfold content
  dsimp only
  rw [append_content, rotated_files]
  by_cases hn : n = (e.day, 0)
  · rw [if_pos hn, if_pos hn, create_content, hn]
  · rw [if_neg hn, if_neg hn, create_content]

/-- (violation) After `Close` the writes of the same day fail until the file is full or the day ends, although nothing is wrong with the disk. -/
theorem closed_same_day (s : St) (e : Env) (x : Bytes) (hb : s.proc.base = some e.day) (hf : e.full = false) :
    (write (step s .close) e x).1 = false ∧ (write (step s .close) e x).2 = step s .close := by
  have hch : choose (step s .close) e = none := by
    unfold choose due
    rw [hf]
    show (if s.proc.base ≠ some e.day then _ else _) = none
    rw [if_neg (by simp [hb])]
    rfl
  unfold write
  rw [hch]
  exact ⟨rfl, rfl⟩

example : (run {} [.write { day := 1 } [1], .write { day := 1, full := true } [2], .restart, .write { day := 1 } [3]]).disk.files =
    [((1, 0), [1, 3]), ((1, 1), [2])] := by decide

/-! ### Examples -/

/-- Two days, a failing disk, a crash, a restart, a full file. -/
def history : List Ev :=
  [.write { day := 1 } [1], .write { day := 1, wr := some 1 } [2, 3], .write { day := 2, openOk := false } [4], .write { day := 2 } [5],
   .write { day := 2, full := true } [6], .crash { day := 3 } [7] 2 0, .write { day := 3 } [8]]

theorem history_ends : (run {} history).disk =
    { files := [((1, 0), [1, 2]), ((2, 0), [5]), ((2, 1), [6]), ((3, 0), [8])], locks := [(3, 0)], tmps := [], link := some (2, 1) } := by decide

example : Ev.close ∉ history ∧ (write (run {} history) { day := 3 } [9]).1 = true := ⟨by decide, logging_resumes {} history (by decide) _ _ ⟨rfl, rfl, rfl⟩⟩
example : (write (run {} history) { day := 3 } [9]).2.disk.link = some (2, 1) := by decide
example : Calm [.write { day := 1 } [1], .restart, .write { day := 2 } [2]] := by
  intro ev h
  simp at h
  rcases h with rfl | rfl | rfl
  · exact Or.inl ⟨_, _, rfl, ⟨rfl, rfl, rfl⟩, rfl, rfl, rfl, rfl⟩
  · exact Or.inr rfl
  · exact Or.inl ⟨_, _, rfl, ⟨rfl, rfl, rfl⟩, rfl, rfl, rfl, rfl⟩
example : (run {} [.write { day := 1 } [1], .restart, .write { day := 2 } [2]]).disk.link = some (2, 0) := by decide

end Verif.Util.LogCrash
