import Verif.Common
import Verif.AMap
/-! # C46 — merging the user tables at server start

Models `libcs/server/config.go` 150-205 (`user`, `users.mergeUsers`, `users.verify`) and the two
calls in `libcs/server/server.go` 340-356 (`Server.Start`).  Strings are byte lists (`len` of a Go
string counts bytes). -/

set_option linter.unusedSimpArgs false
set_option linter.unusedVariables false

namespace Verif.Config
open Verif

abbrev Str := List UInt8

/-- libcs/server/config.go:238-244 `host`, the fields of the configuration file (nil pointers are `none`). -/
structure Host where
  number : Option Nat := none
  regexStr : Option (List Str) := none
  withID : Option Bool := none
deriving Repr, DecidableEq

/-- libcs/server/config.go:154-165 `user`.
`temp` and `portsManager` are unset at this point (they belong to `Registry`/`Ports`). -/
structure User where
  secret : Str
  tcps : List Str := []
  tcpNumber : Option Nat := none
  speed : Nat := 0
  connections : Nat := 0
  host : Host := {}
deriving Repr, DecidableEq

/-- The Go map `users` (sync.Map keyed by id). -/
abbrev Table := AMap Str User

/-- predef/const.go: MinIDSize = MinSecretSize = 1, MaxIDSize = MaxSecretSize = 200. -/
def minSize : Nat := 1
def maxSize : Nat := 200

/-- What a call to `mergeUsers` (or `Start`'s use of it) ends with. -/
inductive Outcome
  | panicked
  | refused (t : Table)
  | merged (t : Table)
deriving Repr, DecidableEq

/-- libcs/server/config.go:191-205 `verify`: ranges over the whole table; any entry with a bad length sets
`err`. -/
def verify (t : Table) : Bool :=
  t.all fun e => (!(e.1.length < minSize || e.1.length > maxSize)) &&
    (!(e.2.secret.length < minSize || e.2.secret.length > maxSize))

/-- libcs/server/config.go:174-177: the loop over the file's map.  A YAML entry without a body
(`alice:`) decodes to a nil `*user`, and `*ud` panics.  The iteration order of the Go map is the
order of the list; all theorems hold for every order. -/
def storeFile : Table → List (Str × Option User) → Option Table
  | t, [] => some t
  | t, (_, none) :: _ => none
  | t, (id, some u) :: r => storeFile (AMap.set t id u) r

/-- libcs/server/config.go:182-186: the loop over the command line's parallel lists. -/
def storeCli : Table → List Str → List Str → Table
  | t, id :: ids, s :: ss => storeCli (AMap.set t id { secret := s }) ids ss
  | t, _, _ => t

/-- libcs/server/config.go:173-189 `mergeUsers`. -/
def mergeUsers (t : Table) (file : List (Str × Option User)) (ids secrets : List Str) : Outcome :=
  match storeFile t file with
  | none => .panicked
  | some t =>
    if ids.length ≠ secrets.length then .refused t
    else
      let t := storeCli t ids secrets
      if verify t then .merged t else .refused t

/-- libcs/server/server.go:341-355: the configuration file's users first, then the users file together with
the command line. -/
def startUsers (cfg file : List (Str × Option User)) (ids secrets : List Str) : Outcome :=
  match mergeUsers [] cfg [] [] with
  | .merged t => mergeUsers t file ids secrets
  | o => o

/-! ## Specification -/

/-- What the file says about `id`. -/
def fileEntry (file : List (Str × Option User)) (id : Str) : Option User :=
  (AMap.get file id).join

/-- `secrets` entry belonging to the last occurrence of `id` on the command line. -/
def CliSecret (ids secrets : List Str) (id s : Str) : Prop :=
  ∃ i : Nat, ids[i]? = some id ∧ secrets[i]? = some s ∧ ∀ j : Nat, i < j → ids[j]? ≠ some id

def LenOk (s : Str) : Prop := 1 ≤ s.length ∧ s.length ≤ 200

/-- The table a user expects: the command line's entry if there is one, else the users file's, else
the configuration's. -/
def Expected (cfg file : List (Str × Option User)) (ids secrets : List Str) (id : Str)
    (u : Option User) : Prop :=
  (∃ s, CliSecret ids secrets id s ∧ u = some { secret := s }) ∨
  (id ∉ ids ∧ u = (fileEntry file id).or (fileEntry cfg id))

/-! ## Lemmas -/

theorem storeFile_none {t : Table} {file} : storeFile t file = none ↔ ∃ id, (id, none) ∈ file := by
  induction file generalizing t with
  | nil => simp [storeFile]
  | cons e r ih =>
    obtain ⟨id, u⟩ := e
    cases u with
    | none => simp only [storeFile, true_iff]; exact ⟨id, by simp⟩
    | some u =>
      simp only [storeFile, ih]
      constructor
      · rintro ⟨i, h⟩; exact ⟨i, by simp [h]⟩
      · rintro ⟨i, h⟩
        refine ⟨i, ?_⟩
        simpa using h

theorem storeFile_get {t t' : Table} {file} (h : storeFile t file = some t')
    (hn : (AMap.keys file).Nodup) (id : Str) :
    AMap.get t' id = (fileEntry file id).or (AMap.get t id) := by
  induction file generalizing t with
  | nil => simp [storeFile] at h; subst h; simp [fileEntry]
  | cons e r ih =>
    obtain ⟨id', u⟩ := e
    cases u with
    | none => simp [storeFile] at h
    | some u =>
      simp only [storeFile] at h
      have hn' : id' ∉ AMap.keys r ∧ (AMap.keys r).Nodup := by
        simpa [AMap.keys] using hn
      rw [ih h hn'.2, AMap.get_set]
      by_cases he : id' = id
      · subst he
        have hg : AMap.get r id' = none := (AMap.get_eq_none_iff r id').2 hn'.1
        simp [fileEntry, hg, AMap.get]
      · have he' : ¬ id = id' := fun x => he x.symm
        simp [fileEntry, AMap.get, he, he']

theorem storeFile_nodup {t t' : Table} {file} (h : storeFile t file = some t')
    (hn : (AMap.keys t).Nodup) : (AMap.keys t').Nodup := by
  induction file generalizing t with
  | nil => simp [storeFile] at h; subst h; exact hn
  | cons e r ih =>
    obtain ⟨id', u⟩ := e
    cases u with
    | none => simp [storeFile] at h
    | some u => simp only [storeFile] at h; exact ih h (AMap.nodup_set hn _ _)

theorem storeCli_nodup {t : Table} {ids ss} (hn : (AMap.keys t).Nodup) :
    (AMap.keys (storeCli t ids ss)).Nodup := by
  induction ids generalizing t ss with
  | nil => simpa [storeCli] using hn
  | cons id ids ih =>
    cases ss with
    | nil => simpa [storeCli] using hn
    | cons s ss => simp only [storeCli]; exact ih (AMap.nodup_set hn _ _)

theorem storeCli_get {t : Table} {ids ss : List Str} (hl : ids.length = ss.length) (id : Str) :
    (∃ s, CliSecret ids ss id s ∧ AMap.get (storeCli t ids ss) id = some { secret := s }) ∨
    (id ∉ ids ∧ AMap.get (storeCli t ids ss) id = AMap.get t id) := by
  induction ids generalizing t ss with
  | nil => right; simp [storeCli]
  | cons i ids ih =>
    cases ss with
    | nil => simp at hl
    | cons s ss =>
      simp only [List.length_cons, Nat.add_right_cancel_iff] at hl
      simp only [storeCli]
      rcases ih (t := AMap.set t i { secret := s }) hl with ⟨s', ⟨k, h1, h2, h3⟩, hg⟩ | ⟨hni, hg⟩
      · refine Or.inl ⟨s', ⟨k + 1, by simpa using h1, by simpa using h2, ?_⟩, hg⟩
        intro j hj
        cases j with
        | zero => omega
        | succ j => simpa using h3 j (by omega)
      · by_cases he : i = id
        · subst he
          refine Or.inl ⟨s, ⟨0, by simp, by simp, ?_⟩, by simp [hg]⟩
          intro j hj hc
          cases j with
          | zero => omega
          | succ j =>
            simp at hc
            exact hni (List.mem_of_getElem? hc)
        · refine Or.inr ⟨?_, ?_⟩
          · intro hm
            rcases List.mem_cons.1 hm with h | h
            · exact he h.symm
            · exact hni h
          · rw [hg, AMap.get_set_ne _ _ he]

theorem verify_iff {t : Table} (hn : (AMap.keys t).Nodup) :
    verify t = true ↔ ∀ id u, AMap.get t id = some u → LenOk id ∧ LenOk u.secret := by
  simp only [verify, List.all_eq_true, LenOk, minSize, maxSize]
  constructor
  · intro h id u hg
    have := h (id, u) (AMap.mem_of_get t hg)
    simp only [Bool.and_eq_true, Bool.not_eq_true', Bool.or_eq_false_iff] at this
    obtain ⟨⟨a, b⟩, c, d⟩ := this
    have := of_decide_eq_false a
    have := of_decide_eq_false b
    have := of_decide_eq_false c
    have := of_decide_eq_false d
    omega
  · intro h e he
    obtain ⟨id, u⟩ := e
    have := h id u (AMap.get_of_mem hn he)
    simp only [Bool.and_eq_true, Bool.not_eq_true', Bool.or_eq_false_iff]
    refine ⟨⟨decide_eq_false ?_, decide_eq_false ?_⟩, decide_eq_false ?_, decide_eq_false ?_⟩ <;> omega

/-! ## Theorems -/

/-- **C46, the merged table.**  If the server accepts the configuration, then for every id the table
holds the command line's secret if the id is given there (the last occurrence; every other setting is
reset), else the users file's entry, else the configuration's, and nothing else; every id and secret
has 1 to 200 bytes; and the command line gives as many ids as secrets. -/
theorem merged_users {cfg file : List (Str × Option User)} {ids secrets : List Str} {t : Table}
    (hc : (AMap.keys cfg).Nodup) (hf : (AMap.keys file).Nodup)
    (h : startUsers cfg file ids secrets = .merged t) :
    ids.length = secrets.length ∧
    (∀ id, Expected cfg file ids secrets id (AMap.get t id)) ∧
    (∀ id u, AMap.get t id = some u → LenOk id ∧ LenOk u.secret) := by
  unfold startUsers mergeUsers at h
  cases h1 : storeFile [] cfg with
  | none => simp [h1] at h
  | some t1 =>
    simp only [h1, List.length_nil, ne_eq, not_true, if_false, storeCli] at h
    by_cases hv : verify t1 = true
    · simp only [hv, if_true] at h
      cases h2 : storeFile t1 file with
      | none => simp [h2] at h
      | some t2 =>
        simp only [h2] at h
        by_cases hl : ids.length = secrets.length
        · simp only [hl, not_true, if_false] at h
          by_cases hv2 : verify (storeCli t2 ids secrets) = true
          · simp only [hv2, if_true, Outcome.merged.injEq] at h
            subst h
            have n1 := storeFile_nodup h1 (by simp [AMap.keys])
            have n2 := storeFile_nodup h2 n1
            refine ⟨hl, ?_, (verify_iff (storeCli_nodup n2)).1 hv2⟩
            intro id
            rcases storeCli_get (t := t2) hl id with h3 | ⟨h3, h4⟩
            · exact Or.inl h3
            · refine Or.inr ⟨h3, ?_⟩
              rw [h4, storeFile_get h2 hf, storeFile_get h1 hc]
              simp
          · simp [hv2] at h
        · simp [hl] at h
    · simp [hv] at h

/-- **C46, what is accepted.**  Without empty YAML entries, the server starts iff the command line gives
as many ids as secrets and every id and every secret of the configuration and of the resulting table has
1 to 200 bytes. -/
theorem users_accepted_iff {cfg file : List (Str × Option User)} {ids secrets : List Str}
    (hc : (AMap.keys cfg).Nodup) (hf : (AMap.keys file).Nodup)
    (hc0 : ∀ id, (id, none) ∉ cfg) (hf0 : ∀ id, (id, none) ∉ file) :
    (∃ t, startUsers cfg file ids secrets = .merged t) ↔
      ids.length = secrets.length ∧
      (∀ id u, fileEntry cfg id = some u → LenOk id ∧ LenOk u.secret) ∧
      (∀ id u, Expected cfg file ids secrets id (some u) → LenOk id ∧ LenOk u.secret) := by
  cases h1 : storeFile [] cfg with
  | none => obtain ⟨i, hi⟩ := storeFile_none.1 h1; exact absurd hi (hc0 i)
  | some t1 =>
    cases h2 : storeFile t1 file with
    | none => obtain ⟨i, hi⟩ := storeFile_none.1 h2; exact absurd hi (hf0 i)
    | some t2 =>
      have n1 := storeFile_nodup h1 (by simp [AMap.keys])
      have n2 := storeFile_nodup h2 n1
      have g1 : ∀ id, AMap.get t1 id = fileEntry cfg id := by
        intro id; rw [storeFile_get h1 hc]; simp
      have key1 : verify t1 = true ↔ ∀ id u, fileEntry cfg id = some u → LenOk id ∧ LenOk u.secret := by
        rw [verify_iff n1]; simp only [g1]
      have red : startUsers cfg file ids secrets =
          if verify t1 = true then
            (if ids.length = secrets.length then
              (if verify (storeCli t2 ids secrets) = true then .merged (storeCli t2 ids secrets)
               else .refused (storeCli t2 ids secrets))
             else .refused t2)
          else .refused t1 := by
        by_cases ha : verify t1 = true
        · by_cases hb : ids.length = secrets.length <;>
            simp [startUsers, mergeUsers, h1, h2, storeCli, ha, hb]
        · simp [startUsers, mergeUsers, h1, h2, storeCli, ha]
      rw [red]
      by_cases hl : ids.length = secrets.length
      · have uniq : ∀ id u, Expected cfg file ids secrets id (some u) ↔
            AMap.get (storeCli t2 ids secrets) id = some u := by
          intro id u
          rcases storeCli_get (t := t2) hl id with ⟨s, hs, hg⟩ | ⟨hni, hg⟩
          · rw [hg]
            constructor
            · rintro (⟨s', hs', he⟩ | ⟨hni, he⟩)
              · obtain ⟨i, a1, a2, a3⟩ := hs
                obtain ⟨j, b1, b2, b3⟩ := hs'
                have : i = j := by
                  rcases Nat.lt_trichotomy i j with h | h | h
                  · exact absurd b1 (a3 j h)
                  · exact h
                  · exact absurd a1 (b3 i h)
                subst this
                rw [a2] at b2
                injection b2 with b2
                subst b2
                exact he.symm
              · obtain ⟨i, a1, a2, a3⟩ := hs
                exact absurd (List.mem_of_getElem? a1) hni
            · intro he
              exact Or.inl ⟨s, hs, he.symm⟩
          · rw [hg, storeFile_get h2 hf, g1]
            constructor
            · rintro (⟨s, ⟨i, a1, _⟩, _⟩ | ⟨_, he⟩)
              · exact absurd (List.mem_of_getElem? a1) hni
              · exact he.symm
            · intro he
              exact Or.inr ⟨hni, he.symm⟩
        have key2 : verify (storeCli t2 ids secrets) = true ↔
            ∀ id u, Expected cfg file ids secrets id (some u) → LenOk id ∧ LenOk u.secret := by
          rw [verify_iff (storeCli_nodup n2)]
          simp only [uniq]
        rw [← key1, ← key2]
        by_cases ha : verify t1 = true <;> by_cases hb : verify (storeCli t2 ids secrets) = true <;>
          simp [ha, hb, hl]
      · simp only [hl, if_false, false_and, iff_false]
        by_cases ha : verify t1 = true <;> simp [ha]

/-- The code is not total: an entry without a body in either YAML file crashes the server at start (all
that is needed before that is that the configuration's own entries pass). -/
theorem empty_user_entry_panics {cfg file : List (Str × Option User)} (ids secrets : List Str)
    {id : Str} (h : (id, none) ∈ cfg) : startUsers cfg file ids secrets = .panicked := by
  have : storeFile [] cfg = none := storeFile_none.2 ⟨id, h⟩
  simp [startUsers, mergeUsers, this]

/-- …and otherwise it never panics. -/
theorem users_no_panic {cfg file : List (Str × Option User)} (ids secrets : List Str)
    (hc0 : ∀ id, (id, none) ∉ cfg) (hf0 : ∀ id, (id, none) ∉ file) :
    startUsers cfg file ids secrets ≠ .panicked := by
  cases h1 : storeFile [] cfg with
  | none => obtain ⟨i, hi⟩ := storeFile_none.1 h1; exact absurd hi (hc0 i)
  | some t1 =>
    cases h2 : storeFile t1 file with
    | none => obtain ⟨i, hi⟩ := storeFile_none.1 h2; exact absurd hi (hf0 i)
    | some t2 =>
      by_cases ha : verify t1 = true
      · by_cases hb : ids.length = secrets.length <;>
          by_cases hd : verify (storeCli t2 ids secrets) = true <;>
          simp [startUsers, mergeUsers, h1, h2, storeCli, ha, hb, hd]
      · simp [startUsers, mergeUsers, h1, h2, storeCli, ha]

/-- Non-vacuity: two file users, one overridden (twice) on the command line, one new. -/
example :
    startUsers [([97], some { secret := [1], speed := 7 })] [([98], some { secret := [2], connections := 3 })]
      [[97], [99], [97]] [[5], [6], [8]] =
    .merged [([97], { secret := [8] }), ([98], { secret := [2], connections := 3 }), ([99], { secret := [6] })] := by
  decide

example : startUsers [([97], some { secret := [] })] [] [] [] = .refused [([97], { secret := [] })] := by decide
example : startUsers [([97], none)] [] [] [] = .panicked := by decide

end Verif.Config
