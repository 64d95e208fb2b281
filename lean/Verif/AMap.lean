/-!
# Finite maps as association lists

Go `map[K]V` values are modelled as association lists without duplicate keys; the order of the list
stands for one (arbitrary) iteration order.
-/
namespace Verif

/-- A Go `map[κ]ν` as an association list. -/
abbrev AMap (κ ν : Type) := List (κ × ν)

namespace AMap
variable {κ ν : Type} [DecidableEq κ]

/-- `m[k]` with the two-value form `v, ok := m[k]`. -/
def get : AMap κ ν → κ → Option ν
  | [], _ => none
  | (k', v) :: m, k => if k' = k then some v else get m k

/-- `delete(m, k)`. -/
def del (m : AMap κ ν) (k : κ) : AMap κ ν := m.filter (fun e => e.1 ≠ k)

/-- `m[k] = v`: overwrite in place, or append a new key. -/
def set : AMap κ ν → κ → ν → AMap κ ν
  | [], k, v => [(k, v)]
  | (k', v') :: m, k, v => if k' = k then (k, v) :: m else (k', v') :: set m k v

/-- The keys of the map. -/
def keys (m : AMap κ ν) : List κ := m.map Prod.fst

@[simp] theorem get_nil (k : κ) : get ([] : AMap κ ν) k = none := rfl

theorem get_set (m : AMap κ ν) (k k' : κ) (v : ν) :
    get (set m k v) k' = if k = k' then some v else get m k' := by
  induction m with
  | nil => simp [set, get]
  | cons e m ih =>
    obtain ⟨a, b⟩ := e
    simp only [set]
    split
    · rename_i h; subst h; simp only [get]; split <;> rfl
    · rename_i h
      simp only [get, ih]
      split
      · rename_i h2; subst h2; split
        · rename_i h3; exact absurd h3.symm h
        · rfl
      · rfl

@[simp] theorem get_set_self (m : AMap κ ν) (k : κ) (v : ν) : get (set m k v) k = some v := by
  simp [get_set]

theorem get_set_ne (m : AMap κ ν) {k k' : κ} (v : ν) (h : k ≠ k') :
    get (set m k v) k' = get m k' := by
  simp [get_set, h]

theorem get_del (m : AMap κ ν) (k k' : κ) :
    get (del m k) k' = if k = k' then none else get m k' := by
  induction m with
  | nil => simp [del, get]
  | cons e m ih =>
    obtain ⟨a, b⟩ := e
    simp only [del] at ih ⊢
    by_cases h : a = k
    · subst h
      rw [List.filter_cons_of_neg (by simp), ih]
      split
      · rfl
      · rename_i h2; simp [get, h2]
    · rw [List.filter_cons_of_pos (by simp [h])]
      simp only [get, ih]
      split
      · rename_i h2; subst h2; split
        · rename_i h3; exact absurd h3.symm h
        · rfl
      · rfl

@[simp] theorem get_del_self (m : AMap κ ν) (k : κ) : get (del m k) k = none := by simp [get_del]

theorem get_eq_none_iff (m : AMap κ ν) (k : κ) : get m k = none ↔ k ∉ keys m := by
  induction m with
  | nil => simp [keys]
  | cons e m ih =>
    obtain ⟨a, b⟩ := e
    simp only [keys] at ih
    simp only [get, keys, List.map_cons, List.mem_cons, not_or]
    split
    · rename_i h; subst h; simp
    · rename_i h; rw [ih]; simp [Ne.symm h]

theorem mem_of_get (m : AMap κ ν) {k : κ} {v : ν} (h : get m k = some v) : (k, v) ∈ m := by
  induction m with
  | nil => simp at h
  | cons e m ih =>
    obtain ⟨a, b⟩ := e
    simp only [get] at h
    split at h
    · rename_i h2; subst h2; simp at h; subst h; simp
    · exact List.mem_cons_of_mem _ (ih h)

theorem get_of_mem {m : AMap κ ν} (hn : (keys m).Nodup) {k : κ} {v : ν} (h : (k, v) ∈ m) :
    get m k = some v := by
  induction m with
  | nil => simp at h
  | cons e m ih =>
    obtain ⟨a, b⟩ := e
    simp only [keys, List.map_cons, List.nodup_cons] at hn
    simp only [List.mem_cons] at h
    simp only [get]
    split
    · rename_i h2
      subst h2
      rcases h with h | h
      · simp at h; simp [h]
      · exact absurd (List.mem_map_of_mem (f := Prod.fst) h) hn.1
    · rename_i h2
      rcases h with h | h
      · simp at h; exact absurd h.1.symm h2
      · exact ih hn.2 h

theorem keys_set (m : AMap κ ν) (k : κ) (v : ν) :
    keys (set m k v) = if k ∈ keys m then keys m else keys m ++ [k] := by
  induction m with
  | nil => simp [set, keys]
  | cons e m ih =>
    obtain ⟨a, b⟩ := e
    simp only [keys] at ih
    simp only [set]
    split
    · rename_i h; subst h; simp [keys]
    · rename_i h
      simp only [keys, List.map_cons, ih, List.mem_cons]
      have h' : k ≠ a := fun hh => h hh.symm
      simp only [h', false_or]
      by_cases hm : k ∈ List.map Prod.fst m <;> simp [hm]

theorem nodup_set {m : AMap κ ν} (hn : (keys m).Nodup) (k : κ) (v : ν) :
    (keys (set m k v)).Nodup := by
  rw [keys_set]
  split
  · exact hn
  · rename_i h
    rw [List.nodup_append]
    refine ⟨hn, by simp, ?_⟩
    intro a ha b hb
    simp at hb; subst hb
    intro hab; subst hab; exact h ha

theorem nodup_del {m : AMap κ ν} (hn : (keys m).Nodup) (k : κ) : (keys (del m k)).Nodup := by
  unfold keys del
  exact (List.Sublist.map _ List.filter_sublist).nodup hn

theorem length_set (m : AMap κ ν) (k : κ) (v : ν) :
    (set m k v).length = if k ∈ keys m then m.length else m.length + 1 := by
  have := congrArg List.length (keys_set m k v)
  simp only [keys, List.length_map] at this ⊢
  rw [this]; by_cases hm : k ∈ List.map Prod.fst m <;> simp [hm]

theorem length_set_le (m : AMap κ ν) (k : κ) (v : ν) : (set m k v).length ≤ m.length + 1 := by
  rw [length_set]; split <;> omega

theorem set_of_not_mem {m : AMap κ ν} {k : κ} (v : ν) (h : k ∉ keys m) :
    set m k v = m ++ [(k, v)] := by
  induction m with
  | nil => rfl
  | cons e m ih =>
    obtain ⟨a, b⟩ := e
    simp only [keys, List.map_cons, List.mem_cons, not_or] at h
    simp only [set]
    rw [if_neg (fun hh => h.1 hh.symm), ih h.2]; rfl

/-- With distinct keys, `get` does not depend on the order of the association list. -/
theorem get_perm {m m' : AMap κ ν} (hp : m.Perm m') (hn : (keys m).Nodup) (k : κ) :
    get m k = get m' k := by
  have hn' : (keys m').Nodup := (hp.map Prod.fst).nodup_iff.mp hn
  cases h : get m k with
  | some v => exact (get_of_mem hn' (hp.mem_iff.mp (mem_of_get m h))).symm
  | none =>
    rw [get_eq_none_iff] at h
    symm; rw [get_eq_none_iff]
    intro hk; exact h ((hp.map Prod.fst).mem_iff.mpr hk)

end AMap
end Verif
