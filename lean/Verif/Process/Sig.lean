import Verif.Common
set_option linter.unusedSimpArgs false
set_option linter.unusedVariables false
/-!
# C112: `-s` of the client and of the server program
(libcs/client/client.go:134-212 `processSignal`, `sig`; libcs/server/server.go:143-216, the same with other
signals)

The program started with `-s stop` looks for running processes of itself and sends them a signal.

Simplified: the list of processes is a list; what reading `/proc/<pid>/exe` and sending give for each is
part of it.
-/
namespace Verif.Process.Sig

abbrev Path := List Char

inductive Err where
  | notExist | permission
  | other
deriving DecidableEq, Repr

structure Proc where
  pid : Nat
  /-- what `proc.Exe()` gives -/
  exe : Except Err Path
  /-- `p.Signal` succeeds -/
  signalOk : Bool := true
deriving DecidableEq, Repr

/-- libcs/client/client.go:182-211 the loop; `self` and `own`: the process id and the path of the program that runs it; `err`: the
variable `err` before this iteration. Result: the processes that got the signal, in order, and whether the
function returns without error. -/
def loop (self : Nat) (own : Path) : Bool → List Proc → List Nat × Bool
  | err, [] => ([], !err)
  | err, p :: ps =>
    if p.pid = self then loop self own err ps
    else match p.exe with
      | .error .other => ([], false)
      | .error _ => loop self own true ps
      | .ok exe =>
        if own.isPrefixOf exe then
          if p.signalOk then
            let r := loop self own false ps
            (p.pid :: r.1, r.2)
          else ([], false)
        else loop self own false ps

/-- libcs/client/client.go:165-212 `sig`. -/
def sig (self : Nat) (own : Path) (ps : List Proc) : List Nat × Bool := loop self own false ps

/-- libcs/client/client.go:134-163 `processSignal`: the exit status of the program. -/
def exitStatus (self : Nat) (own : Path) (ps : List Proc) : Nat := if (sig self own ps).2 then 0 else 1

/-! ## Specification -/

/-- The process runs the program at `own`; the system appends " (deleted)" if the file was replaced or removed
after it was started. -/
def Runs (own : Path) (p : Proc) : Prop := p.exe = .ok own ∨ p.exe = .ok (own ++ " (deleted)".toList)

/-- Full property C112: every other process of the program gets the signal. -/
def ReachesAll (self : Nat) (own : Path) (ps : List Proc) : Prop :=
  ∀ p ∈ ps, p.pid ≠ self → Runs own p → p.pid ∈ (sig self own ps).1

/-- Full property C112: no other process gets it (process ids are unique). -/
def ReachesOnly (self : Nat) (own : Path) (ps : List Proc) : Prop :=
  ∀ p ∈ ps, p.pid ∈ (sig self own ps).1 → Runs own p

/-- Full property C112: the exit status tells whether all were reached. -/
def StatusTells (self : Nat) (own : Path) (ps : List Proc) : Prop :=
  exitStatus self own ps = 0 ↔ ReachesAll self own ps

/-- nothing goes wrong with this process: its path can be read, or is hidden; a process of ours takes the
signal -/
def Fine (own : Path) (p : Proc) : Prop :=
  p.exe ≠ .error .other ∧ ∀ e, p.exe = .ok e → own <+: e → p.signalOk = true

/-- whose path begins with ours -/
def Target (self : Nat) (own : Path) (p : Proc) : Bool :=
  p.pid != self && match p.exe with
    | .ok e => own.isPrefixOf e
    | .error _ => false

/-! ## Proofs -/

theorem loop_fine {self : Nat} {own : Path} {ps : List Proc} (h : ∀ p ∈ ps, p.pid ≠ self → Fine own p) (err : Bool) :
    (loop self own err ps).1 = (ps.filter (Target self own)).map (·.pid) := by
  induction ps generalizing err with
  | nil => rfl
  | cons p ps ih =>
    have ih' := fun e => ih (fun q hq => h q (List.mem_cons_of_mem _ hq)) e
    unfold loop
    by_cases hs : p.pid = self
    · simp only [hs, if_true]
      rw [ih']
      simp [List.filter, Target, hs]
    · simp only [hs, if_false]
      have hf := h p (by simp) hs
      cases he : p.exe with
      | error e =>
        cases e with
        | other => exact absurd he hf.1
        | notExist => simp [List.filter, Target, hs, he, ih']
        | permission => simp [List.filter, Target, hs, he, ih']
      | ok x =>
        cases hp : own.isPrefixOf x with
        | false => simp [List.filter, Target, hs, he, hp, ih']
        | true =>
          have := hf.2 x he (List.isPrefixOf_iff_prefix.mp hp)
          have hb : (p.pid != self) = true := by simpa using hs
          simp [List.filter, Target, hs, he, hp, this, ih', hb]

theorem runs_target {self : Nat} {own : Path} {p : Proc} (hs : p.pid ≠ self) (h : Runs own p) :
    Target self own p = true := by
  rcases h with h | h <;> simp [Target, hs, h]

/-- **C112** If nothing goes wrong, the processes whose path begins with ours get the signal, each once and in
order, and not the sender itself. -/
theorem targets_exact {self : Nat} {own : Path} {ps : List Proc} (h : ∀ p ∈ ps, p.pid ≠ self → Fine own p) :
    (sig self own ps).1 = (ps.filter (Target self own)).map (·.pid) := loop_fine h false

/-- **C112** (part) and so every process of the program is reached. -/
theorem reaches_all_partial {self : Nat} {own : Path} {ps : List Proc}
    (h : ∀ p ∈ ps, p.pid ≠ self → Fine own p) : ReachesAll self own ps := by
  intro p hp hs hr
  rw [targets_exact h]
  exact List.mem_map.mpr ⟨p, List.mem_filter.mpr ⟨hp, runs_target hs hr⟩, rfl⟩

/-- **C112** (part) Only such processes are reached, if no other program's path begins with ours. -/
theorem reaches_only_partial {self : Nat} {own : Path} {ps : List Proc}
    (hn : (ps.map (·.pid)).Nodup)
    (ho : ∀ p ∈ ps, ∀ e, p.exe = .ok e → own <+: e → Runs own p) : ReachesOnly self own ps := by
  have key : ∀ (ps : List Proc) (err : Bool) (x : Nat), x ∈ (loop self own err ps).1 →
      ∃ p ∈ ps, p.pid = x ∧ ∃ e, p.exe = .ok e ∧ own <+: e := by
    intro ps
    induction ps with
    | nil => intro err x h; simp [loop] at h
    | cons p ps ih =>
      intro err x h
      have up : (∃ q ∈ ps, q.pid = x ∧ ∃ e, q.exe = .ok e ∧ own <+: e) →
          ∃ q ∈ p :: ps, q.pid = x ∧ ∃ e, q.exe = .ok e ∧ own <+: e := by
        rintro ⟨q, hq, hh⟩; exact ⟨q, List.mem_cons_of_mem _ hq, hh⟩
      unfold loop at h
      split at h
      · exact up (ih _ x h)
      · split at h
        · simp at h
        · exact up (ih _ x h)
        · rename_i exe he
          split at h
          · rename_i hp
            split at h
            · rcases List.mem_cons.mp h with rfl | h
              · exact ⟨p, by simp, rfl, exe, he, List.isPrefixOf_iff_prefix.mp hp⟩
              · exact up (ih _ x h)
            · simp at h
          · exact up (ih _ x h)
  intro p hp hx
  obtain ⟨q, hq, hpid, e, he, hpre⟩ := key ps false p.pid hx
  have : q = p := by
    clear ho hx key
    induction ps with
    | nil => simp at hp
    | cons a t ih =>
      simp only [List.map_cons, List.nodup_cons] at hn
      rcases List.mem_cons.mp hp with h1 | h1 <;> rcases List.mem_cons.mp hq with h2 | h2
      · rw [h1, h2]
      · exact absurd (h1 ▸ List.mem_map.mpr ⟨q, h2, hpid⟩ : a.pid ∈ t.map (·.pid)) hn.1
      · exact absurd (h2 ▸ List.mem_map.mpr ⟨p, h1, hpid.symm⟩ : a.pid ∈ t.map (·.pid)) hn.1
      · exact ih hn.2 h1 h2
  subst this
  exact ho q hp e he hpre

/-- **C112** The sender never signals itself. -/
theorem not_itself {self : Nat} {own : Path} {ps : List Proc} : self ∉ (sig self own ps).1 := by
  have key : ∀ (ps : List Proc) (err : Bool), self ∉ (loop self own err ps).1 := by
    intro ps
    induction ps with
    | nil => intro err; simp [loop]
    | cons p ps ih =>
      intro err
      unfold loop
      split
      · exact ih _
      · rename_i hs
        split
        · simp
        · exact ih _
        · split
          · split
            · simp only [List.mem_cons, not_or]
              exact ⟨fun h => hs h.symm, ih _⟩
            · simp
          · exact ih _
  exact key ps false

/-- **C112 fails**: a different program whose path begins with ours (`/usr/bin/gt` and `/usr/bin/gtop`) gets the
signal too, even `kill`. -/
theorem other_program_signalled {self : Nat} {own : Path} {ps : List Proc}
    (h : ∀ p ∈ ps, p.pid ≠ self → Fine own p) {p : Proc} (hp : p ∈ ps) (hs : p.pid ≠ self) {rest : Path}
    (he : p.exe = .ok (own ++ rest)) (h1 : rest ≠ []) (h2 : rest ≠ " (deleted)".toList) :
    p.pid ∈ (sig self own ps).1 ∧ ¬ ReachesOnly self own ps := by
  have hm : p.pid ∈ (sig self own ps).1 := by
    rw [targets_exact h]
    exact List.mem_map.mpr ⟨p, List.mem_filter.mpr ⟨hp, by simp [Target, hs, he]⟩, rfl⟩
  refine ⟨hm, ?_⟩
  intro ho
  rcases ho p hp hm with hr | hr
  · rw [he] at hr
    have hr := Except.ok.inj hr
    have : own ++ rest = own ++ [] := by rw [hr]; simp
    exact h1 (List.append_cancel_left this)
  · rw [he] at hr
    have hr := Except.ok.inj hr
    exact h2 (List.append_cancel_left hr)

theorem loop_cons {self : Nat} {own : Path} {err : Bool} {p : Proc} {ps : List Proc} :
    loop self own err (p :: ps) = (if p.pid = self then loop self own err ps
      else match p.exe with
        | .error .other => ([], false)
        | .error _ => loop self own true ps
        | .ok exe =>
          if own.isPrefixOf exe then
            if p.signalOk then (p.pid :: (loop self own false ps).1, (loop self own false ps).2)
            else ([], false)
          else loop self own false ps) := rfl

theorem loop_append {self : Nat} {own : Path} {a b : List Proc} (h : ∀ p ∈ a, p.pid ≠ self → Fine own p)
    (err : Bool) : ∃ err', (loop self own err (a ++ b)).1 =
      (a.filter (Target self own)).map (·.pid) ++ (loop self own err' b).1 := by
  induction a generalizing err with
  | nil => exact ⟨err, by simp⟩
  | cons p ps ih =>
    have ih' := fun e => ih (fun q hq => h q (List.mem_cons_of_mem _ hq)) e
    simp only [List.cons_append]
    rw [loop_cons]
    by_cases hs : p.pid = self
    · simp only [hs, if_true]
      obtain ⟨e', he'⟩ := ih' err
      exact ⟨e', by rw [he']; simp [List.filter, Target, hs]⟩
    · simp only [hs, if_false]
      have hf := h p (by simp) hs
      cases he : p.exe with
      | error e =>
        cases e with
        | other => exact absurd he hf.1
        | notExist =>
          obtain ⟨e', he'⟩ := ih' true
          exact ⟨e', by simp [List.filter, Target, hs, he, he']⟩
        | permission =>
          obtain ⟨e', he'⟩ := ih' true
          exact ⟨e', by simp [List.filter, Target, hs, he, he']⟩
      | ok x =>
        cases hp : own.isPrefixOf x with
        | false =>
          obtain ⟨e', he'⟩ := ih' false
          exact ⟨e', by simp [List.filter, Target, hs, he, hp, he']⟩
        | true =>
          have := hf.2 x he (List.isPrefixOf_iff_prefix.mp hp)
          obtain ⟨e', he'⟩ := ih' false
          have hb : (p.pid != self) = true := by simpa using hs
          exact ⟨e', by simp [List.filter, Target, hs, he, hp, this, he', hb]⟩

/-- **C112 fails**: after the first process that cannot be signalled, for instance because it has just ended,
the others are not signalled. -/
theorem first_failure_ends {self : Nat} {own : Path} {a b : List Proc} {p : Proc}
    (ha : ∀ q ∈ a, q.pid ≠ self → Fine own q) (hs : p.pid ≠ self)
    (hp : p.exe = .error .other ∨ (∃ e, p.exe = .ok e ∧ own <+: e ∧ p.signalOk = false)) :
    (sig self own (a ++ p :: b)).1 = (a.filter (Target self own)).map (·.pid) := by
  obtain ⟨e', he'⟩ := loop_append (b := p :: b) ha false
  have : (loop self own e' (p :: b)).1 = [] := by
    unfold loop
    rw [if_neg hs]
    rcases hp with hp | ⟨e, he, hpre, hk⟩
    · rw [hp]
    · rw [he]
      simp [hk, List.isPrefixOf_iff_prefix.mpr hpre]
  rw [sig, he', this, List.append_nil]

/-- So a process behind it is not reached. -/
theorem not_reaches_all {self : Nat} {own : Path} {a b : List Proc} {p q : Proc}
    (ha : ∀ x ∈ a, x.pid ≠ self → Fine own x) (hs : p.pid ≠ self)
    (hp : p.exe = .error .other ∨ (∃ e, p.exe = .ok e ∧ own <+: e ∧ p.signalOk = false))
    (hq : q ∈ b) (hqs : q.pid ≠ self) (hr : Runs own q) (hnew : ∀ x ∈ a, x.pid ≠ q.pid) :
    ¬ ReachesAll self own (a ++ p :: b) := by
  intro h
  have := h q (by simp [hq]) hqs hr
  rw [first_failure_ends ha hs hp] at this
  obtain ⟨x, hx, hxq⟩ := List.mem_map.mp this
  exact hnew x (List.mem_filter.mp hx).1 hxq

/-- **C112 fails**: if the path of the last process in the list cannot be read for lack of permission, failure
is reported although all were reached. -/
theorem status_wrong {self : Nat} {own : Path} {a : List Proc} {p : Proc}
    (ha : ∀ q ∈ a, q.pid ≠ self → Fine own q) (hs : p.pid ≠ self) (hp : p.exe = .error .permission) :
    exitStatus self own (a ++ [p]) = 1 ∧ ReachesAll self own (a ++ [p]) ∧ ¬ StatusTells self own (a ++ [p]) := by
  have hfine : ∀ q ∈ a ++ [p], q.pid ≠ self → Fine own q := by
    intro q hq hqs
    rcases List.mem_append.mp hq with hq | hq
    · exact ha q hq hqs
    · rw [List.mem_singleton.mp hq]
      exact ⟨by simp [hp], by simp [hp]⟩
  have hall := reaches_all_partial hfine
  have hst : exitStatus self own (a ++ [p]) = 1 := by
    have key : ∀ (a : List Proc) (err : Bool), (loop self own err (a ++ [p])).2 = false := by
      intro a
      induction a with
      | nil => intro err; simp [loop, hs, hp]
      | cons x t ih =>
        intro err
        simp only [List.cons_append]
        unfold loop
        split
        · exact ih _
        · split
          · rfl
          · exact ih _
          · split
            · split
              · exact ih _
              · rfl
            · exact ih _
    simp [exitStatus, sig, key]
  refine ⟨hst, hall, ?_⟩
  intro h
  have := h.mpr hall
  rw [hst] at this
  exact absurd this (by simp)

/-- **C112** (part) If every path can be read and every process of ours takes the signal, the status is 0. -/
theorem status_zero_when_fine {self : Nat} {own : Path} {ps : List Proc}
    (h : ∀ p ∈ ps, p.pid ≠ self → ∃ e, p.exe = .ok e ∧ (own <+: e → p.signalOk = true)) : exitStatus self own ps = 0 := by
  have key : (loop self own false ps).2 = true := by
    induction ps with
    | nil => rfl
    | cons p ps ih =>
      have ih' := ih (fun q hq => h q (List.mem_cons_of_mem _ hq))
      unfold loop
      by_cases hs : p.pid = self
      · rw [if_pos hs]; exact ih'
      · rw [if_neg hs]
        obtain ⟨e, he, hok⟩ := h p List.mem_cons_self hs
        rw [he]
        dsimp only
        by_cases hp : own.isPrefixOf e = true
        · rw [if_pos hp, if_pos (hok (List.isPrefixOf_iff_prefix.mp hp))]; exact ih'
        · rw [if_neg hp]; exact ih'
  unfold exitStatus sig
  rw [key]
  rfl

example : exitStatus 5 "gt".toList [⟨7, .ok "gt".toList, true⟩, ⟨5, .ok "gt".toList, true⟩, ⟨8, .ok "sh".toList, false⟩] = 0 := by decide

/-- **C112** (part) Status 0 means that all were reached. -/
theorem status_zero_means_all {self : Nat} {own : Path} {ps : List Proc} (h : exitStatus self own ps = 0) :
    ReachesAll self own ps := by
  have hok : (sig self own ps).2 = true := by
    unfold exitStatus at h
    split at h
    · assumption
    · simp at h
  have key : ∀ (ps : List Proc) (err : Bool), (loop self own err ps).2 = true →
      ∀ p ∈ ps, p.pid ≠ self → Fine own p := by
    intro ps
    induction ps with
    | nil => intro err _ p hp; simp at hp
    | cons x t ih =>
      intro err hl p hp hs
      unfold loop at hl
      split at hl
      · rename_i hx
        rcases List.mem_cons.mp hp with rfl | hp
        · exact absurd hx hs
        · exact ih _ hl p hp hs
      · split at hl
        · simp at hl
        · rename_i e hne he
          rcases List.mem_cons.mp hp with rfl | hp
          · refine ⟨?_, by simp [he]⟩
            rw [he]
            intro hc
            exact hne (Except.error.inj hc)
          · exact ih _ hl p hp hs
        · rename_i exe he
          split at hl
          · rename_i hpre
            split at hl
            · rename_i hk
              rcases List.mem_cons.mp hp with rfl | hp
              · exact ⟨by simp [he], fun _ _ _ => hk⟩
              · exact ih _ hl p hp hs
            · simp at hl
          · rename_i hpre
            rcases List.mem_cons.mp hp with rfl | hp
            · refine ⟨by simp [he], ?_⟩
              intro e he' hpre'
              rw [he] at he'
              have := Except.ok.inj he'
              subst this
              exact absurd (List.isPrefixOf_iff_prefix.mpr hpre') hpre
            · exact ih _ hl p hp hs
  exact reaches_all_partial (key ps false hok)

/-! ## Witnesses -/

def gt : Path := "/usr/bin/gt".toList
example : sig 5 gt [⟨5, .ok gt, true⟩, ⟨7, .ok gt, true⟩, ⟨8, .error .permission, true⟩,
    ⟨9, .ok "/usr/bin/gt (deleted)".toList, true⟩] = ([7, 9], true) := by decide +kernel
example : sig 5 gt [⟨7, .ok "/usr/bin/gtop".toList, true⟩] = ([7], true) := by decide +kernel
example : sig 5 gt [⟨7, .ok gt, false⟩, ⟨8, .ok gt, true⟩] = ([], false) := by decide +kernel
example : exitStatus 5 gt [⟨7, .ok gt, true⟩, ⟨8, .error .permission, true⟩] = 1 :=
  (status_wrong (a := [⟨7, .ok gt, true⟩]) (by intro q hq _; simp at hq; subst hq; exact ⟨by simp, by simp⟩)
    (by decide) rfl).1

end Verif.Process.Sig
