import Verif.TaskId.Model
set_option linter.unusedSimpArgs false
set_option linter.unusedVariables false
/-! # Property theorems: task ids (C13, C14) -/
namespace Verif.TaskId
open Verif Tunnel

/-- Largest number of goroutines that were ever between the two atomic operations. -/
def maxPending (s : St) : List Ev → Nat
  | [] => s.pending
  | e :: es => max s.pending (maxPending (step s e) es)

theorem step_inv (s : St) (e : Ev) (h1 : s.seed < preserved + s.pending) (h2 : s.pending ≤ 3000)
    (h3 : ∀ i ∈ s.ids, 1 ≤ i ∧ i < preserved) :
    (step s e).seed < preserved + (step s e).pending ∧ (∀ i ∈ (step s e).ids, 1 ≤ i ∧ i < preserved) := by
  unfold preserved at *
  cases e with
  | add =>
    simp only [step]
    have hm : (s.seed + 1) % 4294967296 = s.seed + 1 := Nat.mod_eq_of_lt (by omega)
    rw [hm]
    split
    · exact ⟨by simp only; omega, h3⟩
    · rename_i hlt
      unfold preserved at hlt
      refine ⟨by simp only; omega, ?_⟩
      intro i hi
      simp only [List.mem_cons] at hi
      rcases hi with rfl | hi
      · omega
      · exact h3 i hi
  | store =>
    simp only [step]
    split
    · exact ⟨h1, h3⟩
    · refine ⟨by simp only; omega, ?_⟩
      intro i hi
      simp only [List.mem_cons] at hi
      rcases hi with rfl | hi
      · omega
      · exact h3 i hi

theorem run_inv (evs : List Ev) (s : St) (h1 : s.seed < preserved + s.pending) (h2 : maxPending s evs ≤ 3000)
    (h3 : ∀ i ∈ s.ids, 1 ≤ i ∧ i < preserved) : ∀ i ∈ (run s evs).ids, 1 ≤ i ∧ i < preserved := by
  induction evs generalizing s with
  | nil => exact h3
  | cons e es ih =>
    simp only [maxPending] at h2
    obtain ⟨a, b⟩ := step_inv s e h1 (by omega) h3
    exact ih _ a (by omega) b

/-- C13: for every schedule of allocations (unbounded many connections, interleaved in any way) in
which at most 3000 goroutines are at the same time between the increment and the reset, every id
assigned is at least 1 and below every reserved signal value. Missing: the claim with more than 3000
goroutines in that window, where it is false (`id_zero_reachable`). -/
theorem task_ids_are_never_signals_partial (evs : List Ev) (h : maxPending init evs ≤ 3000) :
    ∀ i ∈ (run init evs).ids, 1 ≤ i ∧ i < preserved ∧
      i ≠ sigPing ∧ i ≠ sigClose ∧ i ≠ sigReady ∧ i ≠ sigError ∧ i ≠ sigInfo ∧ i ≠ sigServices ∧
      i ≠ sigReconnect := by
  intro i hi
  have := run_inv evs init (by decide) h (by simp [init]) i hi
  unfold sigPing sigClose sigReady sigError sigInfo sigServices sigReconnect
  unfold preserved at *
  omega

example : maxPending init [.add, .add, .add] ≤ 3000 ∧ (run init [.add, .add, .add]).ids = [3, 2, 1] := by
  decide

/-! ### Sequential allocation in closed form -/

theorem adds_below (n : Nat) (s : St) (h : s.seed + n < preserved) (hp : s.pending = 0) :
    run s (List.replicate n .add) = ⟨s.seed + n, 0, (List.range' (s.seed + 1) n).reverse ++ s.ids⟩ := by
  induction n generalizing s with
  | zero => obtain ⟨a, b, c⟩ := s; simp at hp; simp [run, hp]
  | succ n ih =>
    have hm : (s.seed + 1) % 4294967296 = s.seed + 1 := Nat.mod_eq_of_lt (by unfold preserved at h; omega)
    have hs : step s .add = ⟨s.seed + 1, 0, (s.seed + 1) :: s.ids⟩ := by
      simp only [step, hm]
      rw [if_neg (by omega), hp]
    rw [List.replicate_succ]
    simp only [run, List.foldl_cons] at ih ⊢
    rw [hs, ih ⟨s.seed + 1, 0, (s.seed + 1) :: s.ids⟩ (by simp only; omega) rfl]
    simp [List.range'_succ]
    omega

theorem adds_above (n : Nat) (s : St) (h1 : preserved ≤ s.seed + 1) (h2 : s.seed + n < 4294967296) :
    run s (List.replicate n .add) = ⟨s.seed + n, s.pending + n, s.ids⟩ := by
  induction n generalizing s with
  | zero => simp [run]
  | succ n ih =>
    have hm : (s.seed + 1) % 4294967296 = s.seed + 1 := Nat.mod_eq_of_lt (by omega)
    have hs : step s .add = ⟨s.seed + 1, s.pending + 1, s.ids⟩ := by
      simp only [step, hm]
      rw [if_pos (by omega)]
    rw [List.replicate_succ]
    simp only [run, List.foldl_cons] at ih ⊢
    rw [hs, ih ⟨s.seed + 1, s.pending + 1, s.ids⟩ (by simp only; omega) (by simp only; omega)]
    simp only [St.mk.injEq, and_true]
    omega

theorem run_append (s : St) (a b : List Ev) : run s (a ++ b) = run (run s a) b := by
  simp [run]

/-- C13 fails without the bound: with 3001 goroutines past the increment, the counter wraps around and
the next connection gets id 0. -/
theorem id_zero_reachable : ∃ evs, 0 ∈ (run init evs).ids := by
  refine ⟨List.replicate 4294964294 .add ++ List.replicate 3001 .add ++ [.add], ?_⟩
  rw [run_append, run_append, adds_below 4294964294 init (by decide) rfl]
  rw [adds_above 3001 _ (by decide) (by decide)]
  simp [run, step, init, preserved]

/-- Sequential allocation: the `n`-th connection gets id `(n mod (P-1)) + 1`, `P` the first reserved
value. -/
theorem sequential_ids (n : Nat) :
    (allocs n).pending = 0 ∧
    (allocs n).seed = (if n = 0 then 0 else (n - 1) % (preserved - 1) + 1) ∧
    (allocs n).ids = ((List.range n).map (fun k => k % (preserved - 1) + 1)).reverse := by
  induction n with
  | zero => simp [allocs, init]
  | succ n ih =>
    obtain ⟨h1, h2, h3⟩ := ih
    rw [allocs]
    generalize allocs n = s at h1 h2 h3
    have hlt : (n - 1) % (preserved - 1) < preserved - 1 := Nat.mod_lt _ (by decide)
    have hseed : s.seed < preserved := by
      rw [h2]; split
      · decide
      · unfold preserved at *; omega
    have hm : (s.seed + 1) % 4294967296 = s.seed + 1 := Nat.mod_eq_of_lt (by unfold preserved at hseed; omega)
    have hnext : (if s.seed + 1 ≥ preserved then 1 else s.seed + 1) = n % (preserved - 1) + 1 := by
      rw [h2]
      by_cases hn : n = 0
      · subst hn; simp [preserved]
      · rw [if_neg hn]
        obtain ⟨m, rfl⟩ : ∃ m, n = m + 1 := ⟨n - 1, by omega⟩
        simp only [Nat.add_sub_cancel] at hlt ⊢
        unfold preserved at *
        split <;> omega
    unfold alloc
    simp only [step, hm, h1]
    by_cases hc : s.seed + 1 ≥ preserved
    · rw [if_pos hc] at hnext
      simp only [if_pos hc]
      simp only [Nat.zero_add, Nat.one_ne_zero, if_false, Nat.sub_self, true_and]
      refine ⟨by simp only [Nat.add_sub_cancel, Nat.succ_ne_zero, if_false]; exact hnext, ?_⟩
      rw [List.range_succ, List.map_append, List.reverse_append, h3]
      simp only [List.map_cons, List.map_nil, List.reverse_cons, List.reverse_nil, List.nil_append,
        List.cons_append]
      rw [← hnext]
    · rw [if_neg hc] at hnext
      simp only [if_neg hc, h1, if_true, true_and]
      refine ⟨by simp only [Nat.add_sub_cancel, Nat.succ_ne_zero, if_false]; exact hnext, ?_⟩
      rw [List.range_succ, List.map_append, List.reverse_append, h3]
      simp only [List.map_cons, List.map_nil, List.reverse_cons, List.reverse_nil, List.nil_append,
        List.cons_append]
      rw [← hnext]

/-- C14 (sequential part): among any `P - 2` consecutively served connections no two have the same
id; so two live connections collide only if one stayed open while 4294964294 others were served. -/
theorem nearby_connections_have_distinct_ids_partial (a b : Nat) (hab : a < b) (hw : b - a < preserved - 1)
    (n : Nat) (hb : b < n) :
    ∃ x y, (allocs n).ids.reverse[a]? = some x ∧ (allocs n).ids.reverse[b]? = some y ∧ x ≠ y := by
  obtain ⟨_, _, h⟩ := sequential_ids n
  rw [h, List.reverse_reverse]
  refine ⟨a % (preserved - 1) + 1, b % (preserved - 1) + 1, ?_, ?_, ?_⟩
  · rw [List.getElem?_map, List.getElem?_range (by omega)]; rfl
  · rw [List.getElem?_map, List.getElem?_range (by omega)]; rfl
  · unfold preserved at *; omega

example : (allocs 5).ids.reverse[1]? = some 2 := by decide

/-- C14 (any schedule before the counter is exhausted): with fewer than 4294964295 connections served
in total, all ids are distinct, however the goroutines interleave. -/
theorem ids_distinct_before_wrap_partial (evs : List Ev) (h : evs.length < preserved) :
    (run init evs).ids.Nodup := by
  have key : ∀ (evs : List Ev) (s : St), s.pending = 0 → s.seed + evs.length < preserved →
      (∀ i ∈ s.ids, i ≤ s.seed) → s.ids.Nodup → (run s evs).ids.Nodup := by
    intro evs
    induction evs with
    | nil => intro s _ _ _ h; exact h
    | cons e es ih =>
      intro s hp hl hb hn
      simp only [List.length_cons] at hl
      simp only [run, List.foldl_cons] at ih ⊢
      cases e with
      | add =>
        have hm : (s.seed + 1) % 4294967296 = s.seed + 1 := Nat.mod_eq_of_lt (by unfold preserved at hl; omega)
        have hs : step s .add = ⟨s.seed + 1, 0, (s.seed + 1) :: s.ids⟩ := by
          simp only [step, hm]
          rw [if_neg (by omega), hp]
        rw [hs]
        apply ih
        · rfl
        · simp only; omega
        · intro i hi
          simp only [List.mem_cons] at hi
          rcases hi with rfl | hi
          · exact Nat.le_refl _
          · have := hb i hi; simp only; omega
        · rw [List.nodup_cons]
          exact ⟨fun hi => by have := hb _ hi; omega, hn⟩
      | store =>
        have hs : step s .store = s := by simp [step, hp]
        rw [hs]
        exact ih s hp (by omega) hb hn
  exact key evs init rfl (by simpa [init] using h) (by simp [init]) (by simp [init])

/-- C14 is violated when the counter is exhausted: two goroutines that both pass the increment before
either resets it get the same id 1, at the same time. -/
theorem concurrent_wrap_gives_equal_ids :
    ∃ evs, (run init evs).pending = 2 ∧ ∃ rest, (run init (evs ++ [.store, .store])).ids = 1 :: 1 :: rest := by
  have h1 : run init (List.replicate 4294964294 .add ++ List.replicate 2 .add) =
      ⟨4294964296, 2, (List.range' 1 4294964294).reverse⟩ := by
    rw [run_append, adds_below 4294964294 init (by decide) rfl, adds_above 2 _ (by decide) (by decide)]
    simp [init]
  refine ⟨List.replicate 4294964294 .add ++ List.replicate 2 .add, by rw [h1], (List.range' 1 4294964294).reverse, ?_⟩
  rw [run_append, h1]
  generalize (List.range' 1 4294964294).reverse = xs
  rfl

/-- C14 is violated after a full cycle: a connection still open when 4294964294 later ones have been
served shares its id with a new one. -/
theorem ids_reused_after_cycle (n : Nat) (hn : preserved - 1 < n) :
    ∃ x, (allocs n).ids.reverse[0]? = some x ∧ (allocs n).ids.reverse[preserved - 1]? = some x := by
  obtain ⟨_, _, h⟩ := sequential_ids n
  rw [h, List.reverse_reverse]
  refine ⟨1, ?_, ?_⟩
  · rw [List.getElem?_map, List.getElem?_range (by omega)]; rfl
  · rw [List.getElem?_map, List.getElem?_range (by omega)]; rfl

end Verif.TaskId
