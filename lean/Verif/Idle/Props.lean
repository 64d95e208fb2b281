import Verif.Idle.Model
set_option linter.unusedSimpArgs false
set_option linter.unusedVariables false
/-! # Property theorems: the idle pool (C17, C18) -/
namespace Verif.Idle
open Verif

/-! ## C17 -/

theorem status_nodup_step (s s' : St) (e : Ev) (h : s.status.keys.Nodup) (hs : step s e = some s') :
    s'.status.keys.Nodup := by
  have hset : ∀ (m : AMap Nat Status) i x, m.keys.Nodup → (m.set i x).keys.Nodup :=
    fun m i x h => AMap.nodup_set h i x
  cases e <;> simp only [step] at hs
  case init id =>
    split at hs
    · simp only [Option.some.injEq] at hs; subst hs
      unfold init; simp only
      split
      · exact hset _ _ _ h
      · exact hset _ _ _ (hset _ _ _ h)
    · simp at hs
  case changeToWait id =>
    split at hs
    · simp only [Option.some.injEq] at hs; subst hs
      unfold changeToWait
      split
      · exact h
      · exact hset _ _ _ h
    · simp at hs
  case peekRunning id n =>
    split at hs
    · split at hs
      · simp only [Option.some.injEq] at hs; subst hs; split <;> exact h
      · simp only [Option.some.injEq] at hs; subst hs; exact h
    · simp at hs
  case setRunning id =>
    split at hs
    · simp only [Option.some.injEq] at hs; subst hs; exact hset _ _ _ h
    · simp at hs
  case setIdle id =>
    split at hs
    · simp only [Option.some.injEq] at hs; subst hs; exact hset _ _ _ h
    · simp at hs
  case setWait id =>
    split at hs
    · simp only [Option.some.injEq] at hs; subst hs; exact hset _ _ _ h
    · simp at hs
  case broadcast =>
    split at hs
    · simp only [Option.some.injEq] at hs; subst hs; exact h
    · simp at hs
  case closeStore => simp only [Option.some.injEq] at hs; subst hs; exact h
  case enter id =>
    split at hs
    · simp only [Option.some.injEq] at hs; subst hs; exact h
    · simp at hs
  case relock id =>
    split at hs
    · simp only [Option.some.injEq] at hs; subst hs; exact h
    · simp at hs
  case check id =>
    split at hs
    · split at hs <;> (simp only [Option.some.injEq] at hs; subst hs; exact h)
    · simp at hs
  case scan id =>
    split at hs
    · split at hs
      · simp only [Option.some.injEq] at hs; subst hs; exact hset _ _ _ h
      · simp only [Option.some.injEq] at hs; subst hs; exact hset _ _ _ (hset _ _ _ h)
    · simp at hs

theorem run_status_nodup (es : List Ev) (s s' : St) (h : s.status.keys.Nodup) (hs : run es s = some s') :
    s'.status.keys.Nodup := by
  induction es generalizing s with
  | nil => simp only [run, Option.some.injEq] at hs; subst hs; exact h
  | cons e es ih =>
    simp only [run] at hs
    split at hs
    · rename_i s1 h1; exact ih s1 (status_nodup_step s s1 e h h1) hs
    · simp at hs

/-- A state some execution of the manager reaches. -/
def Reachable (min : Nat) (s : St) : Prop := ∃ es, run es (new min) = some s

theorem Reachable.nodup {min : Nat} {s : St} (h : Reachable min s) : s.status.keys.Nodup := by
  obtain ⟨es, h⟩ := h
  exact run_status_nodup es _ s (by simp [new, AMap.keys]) h

/-- The count the code computes is the number of idle connections. -/
theorem countIdle_spec (m : AMap Nat Status) (hn : m.keys.Nodup) :
    ∃ l : List Nat, l.Nodup ∧ (∀ id, id ∈ l ↔ m.get id = some .idle) ∧ countIdle m = l.length := by
  refine ⟨(m.filter (fun e => e.2 = .idle)).map Prod.fst, ?_, ?_, by simp [countIdle]⟩
  · exact List.Sublist.nodup (List.Sublist.map _ List.filter_sublist) hn
  · intro id
    constructor
    · intro h
      simp only [List.mem_map, List.mem_filter, decide_eq_true_eq] at h
      obtain ⟨⟨a, b⟩, ⟨h1, h2⟩, h3⟩ := h
      simp only at h2 h3; subst h2; subst h3
      exact AMap.get_of_mem hn h1
    · intro h
      simp only [List.mem_map, List.mem_filter, decide_eq_true_eq]
      exact ⟨(id, .idle), ⟨AMap.mem_of_get _ h, rfl⟩, rfl⟩

theorem nodup_len_le {l l' : List Nat} (h : l.Nodup) (hs : ∀ x ∈ l, x ∈ l') : l.length ≤ l'.length := by
  induction l generalizing l' with
  | nil => simp
  | cons a l ih =>
    simp only [List.nodup_cons] at h
    have ha := hs a (by simp)
    have := ih (l' := l'.erase a) h.2 (fun x hx => by
      rw [List.mem_erase_of_ne (by rintro rfl; exact h.1 hx)]
      exact hs x (by simp [hx]))
    rw [List.length_erase_of_mem ha] at this
    have : 0 < l'.length := List.length_pos_of_mem ha
    simp only [List.length_cons]; omega

theorem idleList_len_unique {m : AMap Nat Status} {l l' : List Nat} (h : l.Nodup) (h' : l'.Nodup)
    (hs : ∀ id, id ∈ l ↔ m.get id = some .idle) (hs' : ∀ id, id ∈ l' ↔ m.get id = some .idle) :
    l.length = l'.length :=
  Nat.le_antisymm (nodup_len_le h (fun x hx => (hs' x).mpr ((hs x).mp hx)))
    (nodup_len_le h' (fun x hx => (hs x).mpr ((hs' x).mp hx)))

theorem count_set_nonidle (m : AMap Nat Status) (hn : m.keys.Nodup) (id : Nat) (x : Status) (hx : x ≠ .idle) :
    countIdle m ≤ countIdle (m.set id x) + 1 ∧ countIdle (m.set id x) ≤ countIdle m := by
  obtain ⟨l, h1, h2, h3⟩ := countIdle_spec m hn
  obtain ⟨l', h1', h2', h3'⟩ := countIdle_spec (m.set id x) (AMap.nodup_set hn id x)
  have hne : id ∉ l' := by
    intro h; rw [h2', AMap.get_set_self] at h; simp at h; exact hx h
  have key : ∀ y, y ≠ id → (y ∈ l ↔ y ∈ l') := by
    intro y hy; rw [h2, h2', AMap.get_set_ne _ _ (Ne.symm hy)]
  rw [h3, h3']
  constructor
  · have := nodup_len_le (l := l) (l' := id :: l') h1 (fun y hy => by
      by_cases h : y = id
      · simp [h]
      · simp only [List.mem_cons]; exact Or.inr ((key y h).mp hy))
    simpa using this
  · apply nodup_len_le h1'
    intro y hy
    have hy' : y ≠ id := by rintro rfl; exact hne hy
    exact (key y hy').mpr hy

/-- C17 (parking). In every reachable state, if `ChangeToWait(id)` answers "park", then more than `min`
connections were idle, at least `min` connections are idle afterwards, and no other connection's status
changed; if it answers "stay", nothing changed; and it answers "park" whenever more than `min` are idle. -/
theorem parking_keeps_minimum (min : Nat) (s : St) (hr : Reachable min s) (id : Nat) (before after : List Nat)
    (hb : IdleList s before) (ha : IdleList (changeToWait s id).2 after) :
    ((changeToWait s id).1 = true ↔ s.min < before.length) ∧
    ((changeToWait s id).1 = true → s.min ≤ after.length ∧ (changeToWait s id).2.status.get id = some .wait ∧
      ∀ j, j ≠ id → (changeToWait s id).2.status.get j = s.status.get j) ∧
    ((changeToWait s id).1 = false → (changeToWait s id).2 = s) := by
  have hn := hr.nodup
  obtain ⟨l, h1, h2, h3⟩ := countIdle_spec s.status hn
  have hlen : countIdle s.status = before.length := by
    rw [h3]; exact idleList_len_unique h1 hb.1 h2 hb.2
  unfold changeToWait at *
  split at ha
  · rename_i hle
    simp only [hle, if_true]
    refine ⟨by simp; omega, by simp, fun _ => trivial⟩
  · rename_i hle
    simp only [hle, if_false]
    refine ⟨by simp; omega, fun _ => ⟨?_, by simp, fun j hj => ?_⟩, by simp⟩
    · obtain ⟨l', h1', h2', h3'⟩ := countIdle_spec (s.status.set id .wait) (AMap.nodup_set hn _ _)
      have := idleList_len_unique h1' ha.1 h2' ha.2
      have := (count_set_nonidle s.status hn id .wait (by simp)).1
      omega
    · exact AMap.get_set_ne _ _ (Ne.symm hj)

/-- `min` never changes. -/
theorem step_min (s s' : St) (e : Ev) (hs : step s e = some s') : s'.min = s.min := by
  cases e <;> simp only [step, init, changeToWait, setStatus, setPc] at hs <;>
    (repeat' split at hs) <;> first | (simp only [Option.some.injEq] at hs; subst hs; (try split) <;> rfl) | (simp at hs)

theorem run_min (es : List Ev) (s s' : St) (hs : run es s = some s') : s'.min = s.min := by
  induction es generalizing s with
  | nil => simp only [run, Option.some.injEq] at hs; subst hs; rfl
  | cons e es ih =>
    simp only [run] at hs
    split at hs
    · rename_i s1 h1; rw [ih s1 hs, step_min s s1 e h1]
    · simp at hs

/-- C17 (any number of parkings). From every reachable state with at least `min` idle connections, any
sequence of `ChangeToWait` calls for any connections leaves at least `min` idle connections. -/
theorem parking_alone_keeps_minimum (min : Nat) (s s' : St) (hr : Reachable min s) (ids before after : List Nat)
    (hb : IdleList s before) (hm : min ≤ before.length) (hs : run (ids.map Ev.changeToWait) s = some s')
    (ha : IdleList s' after) : min ≤ after.length := by
  have hmin : s.min = min := by obtain ⟨es, h⟩ := hr; rw [run_min es _ s h]; rfl
  have hn := hr.nodup
  have h0 : s.min ≤ countIdle s.status := by
    obtain ⟨l, h1, h2, h3⟩ := countIdle_spec s.status hn
    rw [h3, idleList_len_unique h1 hb.1 h2 hb.2]; omega
  have key : s'.status.keys.Nodup ∧ s'.min = s.min ∧ s.min ≤ countIdle s'.status := by
    clear hb hm ha hr hmin
    induction ids generalizing s with
    | nil => simp only [List.map_nil, run, Option.some.injEq] at hs; subst hs; exact ⟨hn, rfl, h0⟩
    | cons i ids ih =>
      simp only [List.map_cons, run] at hs
      split at hs
      · rename_i s1 h1
        have hn1 := status_nodup_step s s1 _ hn h1
        have hm1 := step_min s s1 _ h1
        have hc : s1.min ≤ countIdle s1.status := by
          simp only [step] at h1
          split at h1
          · simp only [Option.some.injEq] at h1; subst h1
            unfold changeToWait at *
            split
            · exact h0
            · rename_i hle
              have := (count_set_nonidle s.status hn i .wait (by simp)).1
              simp only; omega
          · simp at h1
        obtain ⟨a, b, c⟩ := ih s1 hs hn1 hc
        exact ⟨a, by rw [b, hm1], by rw [← hm1]; exact c⟩
      · simp at hs
  obtain ⟨a, b, c⟩ := key
  obtain ⟨l, h1, h2, h3⟩ := countIdle_spec s'.status a
  rw [h3, idleList_len_unique h1 ha.1 h2 ha.2] at c; omega

/-- C17 (initialisation). In every reachable state `Init(id)` parks a connection that is not idle itself
exactly when at least `min` connections are idle, and never changes which others are idle. -/
theorem init_parks_iff_minimum_met (min : Nat) (s : St) (hr : Reachable min s) (id : Nat) (before : List Nat)
    (hb : IdleList s before) (hid : ¬ IsIdle s id) :
    ((init s id).1 = true ↔ s.min ≤ before.length) ∧
    (init s id).2.status.get id = some (if (init s id).1 then .wait else .connecting) ∧
    ∀ j, j ≠ id → (init s id).2.status.get j = s.status.get j := by
  have hn := hr.nodup
  have hc : countIdle (s.status.set id .connecting) = before.length := by
    obtain ⟨l, h1, h2, h3⟩ := countIdle_spec (s.status.set id .connecting) (AMap.nodup_set hn _ _)
    rw [h3]
    refine idleList_len_unique (m := s.status) h1 hb.1 ?_ hb.2
    intro j
    rw [h2, AMap.get_set]
    by_cases h : id = j
    · subst h; simp only [if_true]; exact ⟨fun h => by simp at h, fun h => absurd h hid⟩
    · simp [h]
  unfold init
  simp only
  split
  · rename_i hlt
    refine ⟨by simp; omega, by simp, fun j hj => AMap.get_set_ne _ _ (Ne.symm hj)⟩
  · rename_i hlt
    refine ⟨by simp; omega, by simp, fun j hj => ?_⟩
    simp only
    rw [AMap.get_set_ne _ _ (Ne.symm hj), AMap.get_set_ne _ _ (Ne.symm hj)]

/-- Witness: min 1, connections 1 and 2 idle, 3 connecting: 3 parks at once; then 1 may park and then 2
must stay. -/
example : ∃ s, Reachable 1 s ∧ IdleList s [1, 2] ∧ (changeToWait s 1).1 = true ∧
    (changeToWait (changeToWait s 1).2 2).1 = false ∧ (init s 3).1 = true := by
  refine ⟨⟨[(1, .idle), (2, .idle)], 1, false, [], none, [], 0⟩,
    ⟨[.setIdle 1, .setIdle 2], by decide⟩, ⟨by decide, fun id => ?_⟩, by decide⟩
  simp only [IsIdle, AMap.get, List.mem_cons, List.not_mem_nil, or_false]
  by_cases h1 : 1 = id
  · subst h1; simp
  · by_cases h2 : 2 = id
    · subst h2; simp
    · simp [h1, h2, Ne.symm h1, Ne.symm h2]

/-! ## C18 -/

theorem pc_setPc (s : St) (i j : Nat) (p : WPC) : pc (setPc s i p) j = if i = j then p else pc s j := by
  simp only [pc, setPc, AMap.get_set]; split <;> rfl

theorem get_wakeAll (w : AMap Nat WPC) (i : Nat) :
    ((wakeAll w).get i).getD .out = if (w.get i).getD .out = .asleep then .woken else (w.get i).getD .out := by
  induction w with
  | nil => simp [wakeAll]
  | cons e w ih =>
    simp only [wakeAll, List.map_cons, AMap.get] at *
    by_cases h : e.1 = i
    · simp only [h, if_true, Option.getD_some]
    · simp only [h, if_false]; exact ih

/-- The position of waiter `i` after one step: only the step's own waiter and broadcasts move it. -/
theorem pc_step (s s' : St) (e : Ev) (hs : step s e = some s') (i : Nat) :
    pc s' i = pc s i ∨
    (e = .broadcast ∧ pc s i = .asleep ∧ pc s' i = .woken) ∨
    (e = .enter i ∧ pc s i = .out ∧ pc s' i = .head) ∨
    (e = .relock i ∧ pc s i = .woken ∧ pc s' i = .head) ∨
    (e = .check i ∧ pc s i = .head ∧ ((s.closed = true ∧ pc s' i = .out) ∨ (s.closed = false ∧ pc s' i = .scan))) ∨
    (e = .scan i ∧ pc s i = .scan ∧
      ((otherIdle (s.status.set i .wait) i = true ∧ pc s' i = .asleep) ∨
       (otherIdle (s.status.set i .wait) i = false ∧ pc s' i = .out ∧ s'.status.get i = some .connecting))) := by
  cases e <;> simp only [step] at hs
  case init id =>
    split at hs
    · simp only [Option.some.injEq] at hs; subst hs; left; unfold init; simp only; split <;> rfl
    · simp at hs
  case changeToWait id =>
    split at hs
    · simp only [Option.some.injEq] at hs; subst hs; left; unfold changeToWait; split <;> rfl
    · simp at hs
  case peekRunning id n =>
    split at hs
    · split at hs
      · simp only [Option.some.injEq] at hs; subst hs; left; split <;> rfl
      · simp only [Option.some.injEq] at hs; subst hs; left; rfl
    · simp at hs
  case setRunning id =>
    split at hs
    · simp only [Option.some.injEq] at hs; subst hs; left; rfl
    · simp at hs
  case setIdle id =>
    split at hs
    · simp only [Option.some.injEq] at hs; subst hs; left; rfl
    · simp at hs
  case setWait id =>
    split at hs
    · simp only [Option.some.injEq] at hs; subst hs; left; rfl
    · simp at hs
  case broadcast =>
    split at hs
    · simp only [Option.some.injEq] at hs; subst hs
      simp only [pc, get_wakeAll]
      split
      · rename_i h; right; left; exact ⟨trivial, h, rfl⟩
      · left; rfl
    · simp at hs
  case closeStore => simp only [Option.some.injEq] at hs; subst hs; left; rfl
  case enter id =>
    split at hs
    · rename_i h
      simp only [Option.some.injEq] at hs; subst hs
      by_cases hi : id = i
      · subst hi; right; right; left; refine ⟨rfl, h.2, by simp [pc_setPc]⟩
      · left; rw [pc_setPc, if_neg hi]; rfl
    · simp at hs
  case relock id =>
    split at hs
    · rename_i h
      simp only [Option.some.injEq] at hs; subst hs
      by_cases hi : id = i
      · subst hi; right; right; right; left; refine ⟨rfl, h.2, by simp [pc_setPc]⟩
      · left; rw [pc_setPc, if_neg hi]; rfl
    · simp at hs
  case check id =>
    split at hs
    · rename_i h
      by_cases hi : id = i
      · subst hi; right; right; right; right; left
        refine ⟨rfl, h, ?_⟩
        split at hs
        · rename_i hc; simp only [Option.some.injEq] at hs; subst hs; left; exact ⟨hc, by simp [pc_setPc]⟩
        · rename_i hc; simp only [Option.some.injEq] at hs; subst hs; right; exact ⟨by simpa using hc, by simp [pc_setPc]⟩
      · left
        split at hs <;> (simp only [Option.some.injEq] at hs; subst hs; rw [pc_setPc, if_neg hi]; try rfl)
    · simp at hs
  case scan id =>
    split at hs
    · rename_i h
      by_cases hi : id = i
      · subst hi; right; right; right; right; right
        refine ⟨rfl, h, ?_⟩
        split at hs
        · rename_i hc; simp only [Option.some.injEq] at hs; subst hs; left; exact ⟨hc, by simp [pc_setPc]⟩
        · rename_i hc; simp only [Option.some.injEq] at hs; subst hs; right
          exact ⟨by simpa using hc, by simp [pc_setPc], by simp [setPc]⟩
      · left
        split at hs <;> (simp only [Option.some.injEq] at hs; subst hs; rw [pc_setPc, if_neg hi]; rfl)
    · simp at hs

theorem otherIdle_iff (m : AMap Nat Status) (hn : m.keys.Nodup) (id : Nat) :
    otherIdle (m.set id .wait) id = true ↔ ∃ j, j ≠ id ∧ m.get j = some .idle := by
  simp only [otherIdle, List.any_eq_true, Bool.and_eq_true, decide_eq_true_eq, ne_eq, decide_not,
    Bool.not_eq_true', decide_eq_false_iff_not]
  have hn' := AMap.nodup_set hn id Status.wait
  constructor
  · rintro ⟨⟨j, x⟩, hm, hne, hx⟩
    simp only at hne hx; subst hx
    refine ⟨j, hne, ?_⟩
    have := AMap.get_of_mem hn' hm
    rwa [AMap.get_set_ne _ _ (Ne.symm hne)] at this
  · rintro ⟨j, hne, hj⟩
    refine ⟨(j, .idle), AMap.mem_of_get _ ?_, hne, rfl⟩
    rw [AMap.get_set_ne _ _ (Ne.symm hne)]; exact hj

/-- C18 (safety part). In every execution, at the step where a waiter goes back to connecting, the manager
is closed or no other connection is idle; and it goes to sleep only while some other connection is idle. -/
theorem waiter_decisions (min : Nat) (s s' : St) (hr : Reachable min s) (e : Ev) (hs : step s e = some s') (i : Nat) :
    (pc s i ≠ .out → pc s' i = .out → s.closed = true ∨ ∀ j, j ≠ i → ¬ IsIdle s j) ∧
    (pc s i ≠ .asleep → pc s' i = .asleep → ∃ j, j ≠ i ∧ IsIdle s j) := by
  have hiff := otherIdle_iff s.status hr.nodup i
  have h := pc_step s s' e hs i
  constructor
  · intro h1 h2
    rcases h with h | ⟨_, _, h⟩ | ⟨_, _, h⟩ | ⟨_, _, h⟩ | ⟨_, _, ⟨hc, _⟩ | ⟨_, h⟩⟩ | ⟨_, _, ⟨_, h⟩ | ⟨ho, _, _⟩⟩
    · exact absurd (h ▸ h2) h1
    · rw [h] at h2; simp at h2
    · rw [h] at h2; simp at h2
    · rw [h] at h2; simp at h2
    · exact Or.inl hc
    · rw [h] at h2; simp at h2
    · rw [h] at h2; simp at h2
    · right
      intro j hj hji
      rw [hiff.mpr ⟨j, hj, hji⟩] at ho; simp at ho
  · intro h1 h2
    rcases h with h | ⟨_, _, h⟩ | ⟨_, _, h⟩ | ⟨_, _, h⟩ | ⟨_, _, ⟨_, h⟩ | ⟨_, h⟩⟩ | ⟨_, _, ⟨ho, _⟩ | ⟨_, h, _⟩⟩
    · exact absurd (h ▸ h2) h1
    · rw [h] at h2; simp at h2
    · rw [h] at h2; simp at h2
    · rw [h] at h2; simp at h2
    · rw [h] at h2; simp at h2
    · rw [h] at h2; simp at h2
    · exact hiff.mp ho
    · rw [h] at h2; simp at h2

/-- The lock is held exactly by a waiter inside its critical section. -/
def LockInv (s : St) : Prop := ∀ i, (pc s i = .head ∨ pc s i = .scan) ↔ s.owner = some i

theorem lock_step (s s' : St) (e : Ev) (h : LockInv s) (hs : step s e = some s') : LockInv s' := by
  intro i
  cases e <;> simp only [step] at hs
  case init id =>
    split at hs
    · simp only [Option.some.injEq] at hs; subst hs
      have : pc (init s id).2 i = pc s i ∧ (init s id).2.owner = s.owner := by unfold init; simp only; split <;> exact ⟨rfl, rfl⟩
      rw [this.1, this.2]; exact h i
    · simp at hs
  case changeToWait id =>
    split at hs
    · simp only [Option.some.injEq] at hs; subst hs
      have : pc (changeToWait s id).2 i = pc s i ∧ (changeToWait s id).2.owner = s.owner := by
        unfold changeToWait; split <;> exact ⟨rfl, rfl⟩
      rw [this.1, this.2]; exact h i
    · simp at hs
  case peekRunning id n =>
    split at hs
    · split at hs
      · simp only [Option.some.injEq] at hs; subst hs; split <;> exact h i
      · simp only [Option.some.injEq] at hs; subst hs; exact h i
    · simp at hs
  case setRunning id =>
    split at hs
    · simp only [Option.some.injEq] at hs; subst hs; exact h i
    · simp at hs
  case setIdle id =>
    split at hs
    · simp only [Option.some.injEq] at hs; subst hs; exact h i
    · simp at hs
  case setWait id =>
    split at hs
    · simp only [Option.some.injEq] at hs; subst hs; exact h i
    · simp at hs
  case broadcast =>
    split at hs
    · simp only [Option.some.injEq] at hs; subst hs
      have hi := h i
      simp only [pc, get_wakeAll] at *
      rw [← hi]
      split
      · rename_i ha; simp [ha]
      · rfl
    · simp at hs
  case closeStore => simp only [Option.some.injEq] at hs; subst hs; exact h i
  case enter id =>
    split at hs
    · rename_i hg
      simp only [Option.some.injEq] at hs; subst hs
      rw [pc_setPc]
      by_cases hi : id = i
      · subst hi; simp [setPc]
      · rw [if_neg hi]
        have := h i; rw [hg.1] at this
        simp only [setPc, Option.some.injEq, hi, iff_false]
        have h0 : ¬(pc s i = .head ∨ pc s i = .scan) := by simpa using this
        exact h0
    · simp at hs
  case relock id =>
    split at hs
    · rename_i hg
      simp only [Option.some.injEq] at hs; subst hs
      rw [pc_setPc]
      by_cases hi : id = i
      · subst hi; simp [setPc]
      · rw [if_neg hi]
        have := h i; rw [hg.1] at this
        simp only [setPc, Option.some.injEq, hi, iff_false]
        have h0 : ¬(pc s i = .head ∨ pc s i = .scan) := by simpa using this
        exact h0
    · simp at hs
  case check id =>
    split at hs
    · rename_i hg
      have ho : s.owner = some id := (h id).mp (Or.inl hg)
      split at hs
      · simp only [Option.some.injEq] at hs; subst hs
        rw [pc_setPc]
        by_cases hi : id = i
        · subst hi; simp [setPc]
        · rw [if_neg hi]
          have := h i; rw [ho] at this
          simp only [setPc, iff_false, reduceCtorEq]
          simp only [Option.some.injEq, hi, iff_false] at this
          exact this
      · simp only [Option.some.injEq] at hs; subst hs
        rw [pc_setPc]
        by_cases hi : id = i
        · subst hi; simp [setPc, ho]
        · rw [if_neg hi]; exact h i
    · simp at hs
  case scan id =>
    split at hs
    · rename_i hg
      have ho : s.owner = some id := (h id).mp (Or.inr hg)
      split at hs <;>
      · simp only [Option.some.injEq] at hs; subst hs
        rw [pc_setPc]
        by_cases hi : id = i
        · subst hi; simp [setPc]
        · rw [if_neg hi]
          have := h i; rw [ho] at this
          simp only [setPc, iff_false, reduceCtorEq]
          simp only [Option.some.injEq, hi, iff_false] at this
          exact this
    · simp at hs

theorem Reachable.lock {min : Nat} {s : St} (h : Reachable min s) : LockInv s := by
  obtain ⟨es, h⟩ := h
  have h0 : LockInv (new min) := by intro i; simp [new, pc]
  generalize new min = s0 at h h0
  induction es generalizing s0 with
  | nil => simp only [run, Option.some.injEq] at h; subst h; exact h0
  | cons e es ih =>
    simp only [run] at h
    split at h
    · rename_i s1 h1; exact ih s1 h (lock_step s0 s1 e h0 h1)
    · simp at h

/-- C18 (progress part). In every reachable state the lock can be released: its holder has an enabled step,
and after at most two of its own steps the lock is free. So a woken waiter is never blocked for ever. -/
theorem lock_is_released (min : Nat) (s : St) (hr : Reachable min s) (i : Nat) (ho : s.owner = some i) :
    ∃ es s', es.length ≤ 2 ∧ run es s = some s' ∧ s'.owner = none := by
  have hl := (hr.lock i).mpr ho
  have hscan : ∀ t : St, pc t i = .scan → ∃ t', step t (.scan i) = some t' ∧ t'.owner = none := by
    intro t ht
    simp only [step, ht, if_true]
    split <;> exact ⟨_, rfl, rfl⟩
  rcases hl with hl | hl
  · by_cases hc : s.closed = true
    · exact ⟨[.check i], _, by simp, by simp only [run, step, hl, hc, if_true]; rfl, rfl⟩
    · obtain ⟨t', h1, h2⟩ := hscan (setPc s i .scan) (by simp [pc_setPc])
      refine ⟨[.check i, .scan i], t', by simp, ?_, h2⟩
      have : step s (.check i) = some (setPc s i .scan) := by simp [step, hl, hc]
      simp only [run, this, h1]
  · obtain ⟨t', h1, h2⟩ := hscan s hl
    exact ⟨[.scan i], t', by simp, by simp only [run, h1], h2⟩

/-- C18 (after a broadcast). A broadcast wakes every sleeper; a woken waiter that gets the lock while the
manager is closed or no other connection is idle returns, in at most three steps of its own. -/
theorem woken_waiter_returns (min : Nat) (s s' : St) (hr : Reachable min s)
    (hs : step s .broadcast = some s') : (∀ i, pc s' i ≠ .asleep) ∧
    ∀ i t, Reachable min t → pc t i = .woken → t.owner = none → (t.closed = true ∨ ∀ j, j ≠ i → ¬ IsIdle t j) →
      ∃ es t', es.length ≤ 3 ∧ run es t = some t' ∧ pc t' i = .out := by
  constructor
  · intro i
    simp only [step] at hs
    split at hs
    · simp only [Option.some.injEq] at hs; subst hs
      simp only [pc, get_wakeAll]
      split
      · simp
      · assumption
    · simp at hs
  · intro i t ht hw ho hc
    have h1 : step t (.relock i) = some (setPc { t with owner := some i } i .head) := by simp [step, hw, ho]
    have hp1 : pc (setPc { t with owner := some i } i .head) i = .head := by simp [pc_setPc]
    by_cases hcl : t.closed = true
    · have h2 : ∃ t', step (setPc { t with owner := some i } i .head) (.check i) = some t' ∧ pc t' i = .out := by
        have hcl' : (setPc { t with owner := some i } i .head).closed = true := hcl
        simp only [step, hp1, hcl', if_true]
        exact ⟨_, rfl, by simp [pc_setPc]⟩
      obtain ⟨t', h2, h3⟩ := h2
      exact ⟨[.relock i, .check i], t', by simp, by simp only [run, h1, h2], h3⟩
    · have hno := hc.resolve_left hcl
      have h2 : step (setPc { t with owner := some i } i .head) (.check i) =
          some (setPc (setPc { t with owner := some i } i .head) i .scan) := by
        simp only [step, hp1, if_true]; rw [if_neg]; exact hcl
      have hp2 : pc (setPc (setPc { t with owner := some i } i .head) i .scan) i = .scan := by simp [pc_setPc]
      have hoi : otherIdle (t.status.set i .wait) i = false := by
        cases hq : otherIdle (t.status.set i .wait) i with
        | false => rfl
        | true =>
          obtain ⟨j, hj, hi⟩ := (otherIdle_iff t.status ht.nodup i).mp hq
          exact absurd hi (hno j hj)
      have h3 : ∃ t', step (setPc (setPc { t with owner := some i } i .head) i .scan) (.scan i) = some t' ∧
          pc t' i = .out := by
        have : otherIdle ((setPc (setPc { t with owner := some i } i .head) i .scan).status.set i .wait) i = false := hoi
        simp only [step, hp2, if_true, this, Bool.false_eq_true, if_false]
        exact ⟨_, rfl, by simp [pc_setPc]⟩
      obtain ⟨t', h3, h4⟩ := h3
      exact ⟨[.relock i, .check i, .scan i], t', by simp, by simp only [run, h1, h2, h3], h4⟩

/-- Events that (lead to) a broadcast: a connection's third or later simultaneous task, and `Close`. -/
def causesBroadcast : Ev → Bool
  | .peekRunning _ n => 3 ≤ n
  | .closeStore => true
  | _ => false

theorem no_wake_without_broadcast (es : List Ev) (s s' : St) (hs : run es s = some s') (hb : s.pendB = 0)
    (hne : ∀ e ∈ es, causesBroadcast e = false) (i : Nat) (hi : pc s i = .asleep) :
    pc s' i = .asleep ∧ s'.pendB = 0 := by
  induction es generalizing s with
  | nil => simp only [run, Option.some.injEq] at hs; subst hs; exact ⟨hi, hb⟩
  | cons e es ih =>
    simp only [run] at hs
    split at hs
    · rename_i s1 h1
      have hb1 : s1.pendB = 0 := by
        have hce := hne e (by simp)
        cases e <;> simp only [step, init, changeToWait, setStatus, setPc] at h1
        case peekRunning id n =>
          simp only [causesBroadcast, decide_eq_false_iff_not] at hce
          simp only [hce, if_false] at h1
          repeat' split at h1
          all_goals first | (simp only [Option.some.injEq] at h1; subst h1; exact hb) | (simp at h1)
        case closeStore => simp [causesBroadcast] at hce
        all_goals
          repeat' split at h1
          all_goals first
            | (simp only [Option.some.injEq] at h1; subst h1; (try split) <;> first | exact hb | (simp only [hb]))
            | (simp at h1)
            | omega
      have hi1 : pc s1 i = .asleep := by
        rcases pc_step s s1 e h1 i with h | ⟨h, _, _⟩ | ⟨_, h, _⟩ | ⟨_, h, _⟩ | ⟨_, h, _⟩ | ⟨_, h, _⟩
        · rw [h]; exact hi
        · subst h; simp only [step, hb] at h1; simp at h1
        all_goals rw [hi] at h; simp at h
      exact ih s1 hs hb1 (fun e' he' => hne e' (by simp [he'])) hi1
    · simp at hs

/-- C18 fails (1): connection 1 is idle, connection 2 sleeps in `WaitIdle`; 1 gets a task and becomes
running. Now no connection is idle and 2 sleeps without a pending wake-up; and it stays asleep in every
continuation in which no connection reaches three simultaneous tasks and the client is not closed. -/
theorem idle_wakeup_is_lost : ∃ s, Reachable 1 s ∧ (∀ j, ¬ IsIdle s j) ∧ s.closed = false ∧ pc s 2 = .asleep ∧
    s.pendB = 0 ∧ s.pendSet = [] ∧
    ∀ es s', run es s = some s' → (∀ e ∈ es, causesBroadcast e = false) → pc s' 2 = .asleep := by
  refine ⟨⟨[(1, .running), (2, .wait)], 1, false, [(2, .asleep)], none, [], 0⟩,
    ⟨[.init 1, .setIdle 1, .init 2, .setWait 2, .enter 2, .check 2, .scan 2, .peekRunning 1 1, .setRunning 1], by decide⟩,
    ?_, rfl, by decide, rfl, rfl, ?_⟩
  · intro j h
    simp only [IsIdle, AMap.get] at h
    repeat' split at h
    all_goals simp at h
  · intro es s' h hne
    exact (no_wake_without_broadcast es _ s' h rfl hne 2 (by decide)).1

/-- C18 fails (2): `Close` between the waiter's check of `close` and its going to sleep is lost: the manager
is closed, its broadcast is over, and the waiter sleeps. -/
theorem close_wakeup_is_lost : ∃ s, Reachable 1 s ∧ s.closed = true ∧ pc s 2 = .asleep ∧ s.pendB = 0 :=
  ⟨⟨[(1, .idle), (2, .wait)], 1, true, [(2, .asleep)], none, [], 0⟩,
    ⟨[.init 1, .setIdle 1, .init 2, .setWait 2, .enter 2, .check 2, .closeStore, .broadcast, .scan 2], by decide⟩,
    rfl, by decide, rfl⟩

/-- C18, what holds: a waiter that is asleep (or not yet past its check) when `Close` stores the flag is not
asleep after the broadcast of that `Close`, and never sleeps again in any continuation. -/
theorem close_releases_sleepers_partial (es : List Ev) (s s' : St) (hs : run es s = some s') (hc : s.closed = true)
    (i : Nat) (hi : pc s i ≠ .asleep ∧ pc s i ≠ .scan) : s'.closed = true ∧ pc s' i ≠ .asleep ∧ pc s' i ≠ .scan := by
  induction es generalizing s with
  | nil => simp only [run, Option.some.injEq] at hs; subst hs; exact ⟨hc, hi⟩
  | cons e es ih =>
    simp only [run] at hs
    split at hs
    · rename_i s1 h1
      have hc1 : s1.closed = true := by
        cases e <;> simp only [step, init, changeToWait, setStatus, setPc] at h1 <;>
          (repeat' split at h1) <;>
          first | (simp only [Option.some.injEq] at h1; subst h1; (try split) <;> first | exact hc | rfl) | (simp at h1)
      refine ih s1 hs hc1 ?_
      rcases pc_step s s1 e h1 i with h | ⟨_, h, _⟩ | ⟨_, _, h⟩ | ⟨_, _, h⟩ | ⟨_, _, ⟨_, h⟩ | ⟨h, _⟩⟩ | ⟨_, h, _⟩
      · rw [h]; exact hi
      · exact absurd h hi.1
      · rw [h]; simp
      · rw [h]; simp
      · rw [h]; simp
      · rw [hc] at h; simp at h
      · exact absurd h hi.2
    · simp at hs

/-- Witness for the broadcast theorems: a sleeping waiter released by a third task after the idle connection
became running. -/
example : ∃ s, run [.init 1, .setIdle 1, .init 2, .setWait 2, .enter 2, .check 2, .scan 2, .peekRunning 1 1,
      .setRunning 1, .peekRunning 1 3, .broadcast, .relock 2, .check 2, .scan 2] (new 1) = some s ∧
    pc s 2 = .out ∧ s.status.get 2 = some .connecting := ⟨_, rfl, by decide, by decide⟩

end Verif.Idle
