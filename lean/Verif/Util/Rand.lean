import Verif.Web.Access
set_option linter.unusedSimpArgs false
set_option linter.unusedVariables false
/-!
# C146: what the programs make up (libcs/util/rand.go)

The generator is Go's `math/rand`, seeded with the second in which the process started (rand.go:28-30). Its algorithm is not
modelled: `g sec i` is the `i`-th 31-bit number (`Int31`) of the generator with seed `sec`, for an arbitrary `g`. `RandomString` holds a mutex
(rand.go:37-38), so a process is the list of its calls in the order in which they got it.
-/
namespace Verif.Util.Rand
open Verif

/-- Go's `math/rand` `Intn` → `Int31n` for `n` that is not a power of two: numbers above the largest multiple of `n` are thrown away. `pos`: how many
numbers were taken before; `none`: more than `fuel` numbers in a row were thrown away. -/
def intn (g : Nat → Nat) (n : Nat) : Nat → Nat → Option (Nat × Nat)
  | 0, _ => none
  | f + 1, pos =>
    if g pos > 2 ^ 31 - 1 - 2 ^ 31 % n then intn g n f (pos + 1) else some (g pos % n, pos + 1)

/-- libcs/util/rand.go:34. -/
def letters : List Char := "abcdefghijklmnopqrstuvwxyzABCDEFGHIJKLMNOPQRSTUVWXYZ0123456789".toList

/-- libcs/util/rand.go:40. -/
def letter (k : Nat) : Char := letters.getD k '?'

/-- libcs/util/rand.go:33-43 `RandomString`. -/
def randomString (g : Nat → Nat) (fuel : Nat) : Nat → Nat → Option (List Char × Nat)
  | 0, pos => some ([], pos)
  | n + 1, pos =>
    match intn g 62 fuel pos with
    | none => none
    | some (k, pos) => (randomString g fuel n pos).map fun q => (letter k :: q.1, q.2)

/-- libcs/util/rand.go:45-49 `RandomPort`. -/
def randomPort (g : Nat → Nat) (fuel : Nat) (pos : Nat) : Option (Nat × Nat) :=
  (intn g (65535 - 1024) fuel pos).map fun q => (q.1 + 1024, q.2)

/-- A process: the strings of the lengths `ns`, in this order. -/
def run (g : Nat → Nat) (fuel : Nat) : List Nat → Nat → Option (List (List Char) × Nat)
  | [], pos => some ([], pos)
  | n :: ns, pos =>
    match randomString g fuel n pos with
    | none => none
    | some (s, pos) => (run g fuel ns pos).map fun q => (s :: q.1, q.2)

/-- The string that a process started in the second `sec` gets for a request of `n` letters, after requests `before`. -/
def made (g : Nat → Nat → Nat) (fuel sec : Nat) (before : List Nat) (n : Nat) : Option (List Char) :=
  (run (g sec) fuel (before ++ [n]) 0).bind fun q => q.1.getLast?

/-! ## Specification -/

/-- The usable numbers among the first `j` of the generator. -/
def usable (g : Nat → Nat) (n j : Nat) : List Nat := ((List.range j).map g).filter (fun v => v ≤ 2 ^ 31 - 1 - 2 ^ 31 % n)

/-- A letter `a`-`z`, `A`-`Z` or a digit. -/
def AlphaNum (c : Char) : Prop :=
  ('a' ≤ c ∧ c ≤ 'z') ∨ ('A' ≤ c ∧ c ≤ 'Z') ∨ ('0' ≤ c ∧ c ≤ '9')

/-! ## Form -/

theorem letter_ok (k : Nat) (h : k < 62) : AlphaNum (letter k) := by
  have : ∀ k : Fin 62, AlphaNum (letter k.1) := by unfold AlphaNum; decide +kernel
  exact this ⟨k, h⟩

/-- The 62 letters are different. -/
theorem letter_inj (i j : Nat) (hi : i < 62) (hj : j < 62) (h : letter i = letter j) : i = j := by
  have : ∀ i j : Fin 62, letter i.1 = letter j.1 → i = j := by decide +kernel
  exact congrArg Fin.val (this ⟨i, hi⟩ ⟨j, hj⟩ h)

theorem intn_lt (g : Nat → Nat) (n : Nat) (hn : 0 < n) : ∀ f pos k p, intn g n f pos = some (k, p) → k < n := by
  intro f
  induction f with
  | zero => intro pos k p h; cases h
  | succ f ih =>
    intro pos k p h
    simp only [intn] at h
    split at h
    · exact ih _ _ _ h
    · cases h; exact Nat.mod_lt _ hn

theorem randomString_form (g : Nat → Nat) (f : Nat) : ∀ n pos s p, randomString g f n pos = some (s, p) →
    s.length = n ∧ ∀ c ∈ s, AlphaNum c := by
  intro n
  induction n with
  | zero => intro pos s p h; cases h; exact ⟨rfl, by simp⟩
  | succ n ih =>
    intro pos s p h
    simp only [randomString] at h
    cases hi : intn g 62 f pos with
    | none => rw [hi] at h; cases h
    | some q =>
      obtain ⟨k, p1⟩ := q
      rw [hi] at h
      dsimp only at h
      cases hr : randomString g f n p1 with
      | none => rw [hr] at h; cases h
      | some q2 =>
        rw [hr] at h
        cases h
        obtain ⟨i1, i2⟩ := ih p1 q2.1 q2.2 hr
        refine ⟨by simp [i1], ?_⟩
        intro c hc
        rcases List.mem_cons.1 hc with hc | hc
        · rw [hc]; exact letter_ok k (intn_lt g 62 (by decide) _ _ _ _ hi)
        · exact i2 c hc

theorem run_form (g : Nat → Nat) (f : Nat) : ∀ ns pos ss p, run g f ns pos = some (ss, p) →
    ss.map List.length = ns ∧ ∀ s ∈ ss, ∀ c ∈ s, AlphaNum c := by
  intro ns
  induction ns with
  | nil => intro pos ss p h; cases h; exact ⟨rfl, by simp⟩
  | cons n ns ih =>
    intro pos ss p h
    simp only [run] at h
    cases hr : randomString g f n pos with
    | none => rw [hr] at h; cases h
    | some q =>
      obtain ⟨s, p1⟩ := q
      rw [hr] at h
      dsimp only at h
      cases hr2 : run g f ns p1 with
      | none => rw [hr2] at h; cases h
      | some q2 =>
        rw [hr2] at h
        cases h
        obtain ⟨i1, i2⟩ := ih p1 q2.1 q2.2 hr2
        obtain ⟨j1, j2⟩ := randomString_form g f n pos s p1 hr
        refine ⟨by simp [i1, j1], ?_⟩
        intro s' hs
        rcases List.mem_cons.1 hs with hs | hs
        · rw [hs]; exact j2
        · exact i2 s' hs

/-! ## No number is used twice -/

theorem usable_add (g : Nat → Nat) (n : Nat) (a b : Nat) :
    usable g n (a + b) = usable g n a ++ ((List.range b).map fun i => g (a + i)).filter (fun v => v ≤ 2 ^ 31 - 1 - 2 ^ 31 % n) := by
  unfold usable
  rw [List.range_add, List.map_append, List.filter_append, List.map_map]
  rfl

theorem usable_succ (g : Nat → Nat) (n a : Nat) :
    usable g n (a + 1) = usable g n a ++ (if g a ≤ 2 ^ 31 - 1 - 2 ^ 31 % n then [g a] else []) := by
  rw [usable_add]
  simp only [List.range_one, List.map_cons, List.map_nil, Nat.add_zero]
  rw [List.filter_cons]
  by_cases h : g a ≤ 2 ^ 31 - 1 - 2 ^ 31 % n
  · simp [h]
  · simp [h]

theorem intn_usable (g : Nat → Nat) (n : Nat) : ∀ f pos k p, intn g n f pos = some (k, p) →
    pos < p ∧ ∃ v, k = v % n ∧ usable g n p = usable g n pos ++ [v] := by
  intro f
  induction f with
  | zero => intro pos k p h; cases h
  | succ f ih =>
    intro pos k p h
    simp only [intn] at h
    by_cases hv : g pos > 2 ^ 31 - 1 - 2 ^ 31 % n
    · rw [if_pos hv] at h
      obtain ⟨h1, v, h2, h3⟩ := ih _ _ _ h
      refine ⟨by omega, v, h2, ?_⟩
      rw [h3, usable_succ, if_neg (by omega)]
      simp
    · rw [if_neg hv] at h
      cases h
      refine ⟨by omega, g pos, rfl, ?_⟩
      rw [usable_succ, if_pos (by omega)]

theorem randomString_usable (g : Nat → Nat) (f : Nat) : ∀ n pos s p, randomString g f n pos = some (s, p) →
    ∃ vs, s = vs.map (fun v => letter (v % 62)) ∧ usable g 62 p = usable g 62 pos ++ vs := by
  intro n
  induction n with
  | zero => intro pos s p h; cases h; exact ⟨[], rfl, by simp⟩
  | succ n ih =>
    intro pos s p h
    simp only [randomString] at h
    cases hi : intn g 62 f pos with
    | none => rw [hi] at h; cases h
    | some q =>
      obtain ⟨k, p1⟩ := q
      rw [hi] at h
      dsimp only at h
      cases hr : randomString g f n p1 with
      | none => rw [hr] at h; cases h
      | some q2 =>
        rw [hr] at h
        cases h
        obtain ⟨_, v, h2, h3⟩ := intn_usable g 62 _ _ _ _ hi
        obtain ⟨vs, i1, i2⟩ := ih p1 q2.1 q2.2 hr
        refine ⟨v :: vs, by simp [i1, h2], ?_⟩
        rw [i2, h3]
        simp

theorem run_usable (g : Nat → Nat) (f : Nat) : ∀ ns pos ss p, run g f ns pos = some (ss, p) →
    ∃ vs, ss.flatten = vs.map (fun v => letter (v % 62)) ∧ usable g 62 p = usable g 62 pos ++ vs := by
  intro ns
  induction ns with
  | nil => intro pos ss p h; cases h; exact ⟨[], rfl, by simp⟩
  | cons n ns ih =>
    intro pos ss p h
    simp only [run] at h
    cases hr : randomString g f n pos with
    | none => rw [hr] at h; cases h
    | some q =>
      obtain ⟨s, p1⟩ := q
      rw [hr] at h
      dsimp only at h
      cases hr2 : run g f ns p1 with
      | none => rw [hr2] at h; cases h
      | some q2 =>
        rw [hr2] at h
        cases h
        obtain ⟨vs, i1, i2⟩ := ih p1 q2.1 q2.2 hr2
        obtain ⟨ws, j1, j2⟩ := randomString_usable g f n pos s p1 hr
        refine ⟨ws ++ vs, by simp [i1, j1], ?_⟩
        rw [i2, j2]
        simp

/-- **C146** (form). For every generator and every sequence of requests: each string has the length asked for and consists of
letters and digits, and the strings together, in order, are the usable numbers of the generator from the first on, each used for
one letter of one string. (Missing: that they cannot be guessed, which is false: `guessable`.) -/
theorem well_formed_partial (g : Nat → Nat) (f : Nat) (ns : List Nat) (ss : List (List Char)) (p : Nat)
    (h : run g f ns 0 = some (ss, p)) :
    ss.map List.length = ns ∧ (∀ s ∈ ss, ∀ c ∈ s, AlphaNum c) ∧
      ss.flatten = (usable g 62 p).map (fun v => letter (v % 62)) := by
  obtain ⟨h1, h2⟩ := run_form g f ns 0 ss p h
  obtain ⟨vs, h3, h4⟩ := run_usable g f ns 0 ss p h
  refine ⟨h1, h2, ?_⟩
  rw [h4, h3]
  rfl

/-! ## Each letter is as likely as the others -/

theorem count_one (n k : Nat) (hk : k < n) : (List.range n).countP (fun v => v == k) = 1 := by
  have := List.Nodup.count (a := k) (List.nodup_range (n := n))
  rw [if_pos (List.mem_range.2 hk)] at this
  exact this

theorem count_mod (n k : Nat) (hk : k < n) : ∀ q, (List.range (q * n)).countP (fun v => v % n == k) = q := by
  intro q
  induction q with
  | zero => simp
  | succ q ih =>
    rw [Nat.succ_mul, List.range_add, List.countP_append, ih, List.countP_map]
    have : (List.range n).countP ((fun v => v % n == k) ∘ fun x => q * n + x) = (List.range n).countP (fun v => v == k) := by
      apply List.countP_congr
      intro x hx
      have hx := List.mem_range.1 hx
      simp only [Function.comp]
      rw [Nat.add_comm, Nat.add_mul_mod_self_right, Nat.mod_eq_of_lt hx]
    rw [this, count_one n k hk]

theorem uniform_aux (n k : Nat) (hk : k < n) (hn : n ≤ 2 ^ 31) :
    (List.range (2 ^ 31)).countP (fun v => decide (v ≤ 2 ^ 31 - 1 - 2 ^ 31 % n) && v % n == k) = 2 ^ 31 / n := by
  have hdm := Nat.div_add_mod (2 ^ 31) n
  have hlt := Nat.mod_lt (2 ^ 31) (show 0 < n by omega)
  have hc : n * (2 ^ 31 / n) = (2 ^ 31 / n) * n := Nat.mul_comm _ _
  generalize 2 ^ 31 % n = m at *
  generalize 2 ^ 31 / n = q at *
  rw [hc] at hdm
  have h1 : 2 ^ 31 = q * n + m := hdm.symm
  rw [h1, List.range_add, List.countP_append, List.countP_map]
  have e1 : (List.range (q * n)).countP (fun v => decide (v ≤ q * n + m - 1 - m) && v % n == k) =
      (List.range (q * n)).countP (fun v => v % n == k) := by
    apply List.countP_congr
    intro v hv
    have hv := List.mem_range.1 hv
    have : v ≤ q * n + m - 1 - m := by omega
    simp [this]
  have hq : 0 < q * n := by omega
  have e2 : (List.range m).countP ((fun v => decide (v ≤ q * n + m - 1 - m) && v % n == k) ∘ fun x => q * n + x) = 0 := by
    rw [List.countP_eq_zero]
    intro x hx
    simp only [Function.comp]
    have : ¬ (q * n + x ≤ q * n + m - 1 - m) := by omega
    simp [this]
  rw [e1, e2, count_mod n k hk]
  rfl

/-- **C146** (uniform). Of the 2^31 numbers the generator can give, just as many lead to each of the `n` values; the others (fewer
than `n`) are thrown away. -/
theorem uniform (n k : Nat) (hk : k < n) (hn : n ≤ 2 ^ 31) :
    (List.range (2 ^ 31)).countP (fun v => intn (fun _ => v) n 1 0 == some (k, 1)) = 2 ^ 31 / n := by
  rw [← uniform_aux n k hk hn]
  apply List.countP_congr
  intro v _
  simp only [intn]
  by_cases h : v > 2 ^ 31 - 1 - 2 ^ 31 % n
  · rw [if_pos h]
    have : ¬ v ≤ 2 ^ 31 - 1 - 2 ^ 31 % n := by omega
    simp only [this, decide_false, Bool.false_and]
    simp
  · rw [if_neg h]
    have : v ≤ 2 ^ 31 - 1 - 2 ^ 31 % n := by omega
    simp only [this, decide_true, Bool.true_and]
    simp

/-- **C146** (ports). A random port is neither reserved nor 65535. -/
theorem port_range (g : Nat → Nat) (f pos port p : Nat) (h : randomPort g f pos = some (port, p)) :
    1024 ≤ port ∧ port < 65535 := by
  unfold randomPort at h
  cases hi : intn g (65535 - 1024) f pos with
  | none => rw [hi] at h; cases h
  | some q =>
    rw [hi] at h
    cases h
    have := intn_lt g (65535 - 1024) (by decide) f pos q.1 q.2 hi
    omega

/-! ## They can be guessed -/

theorem run_append (g : Nat → Nat) (f : Nat) : ∀ (xs ys : List Nat) pos, run g f (xs ++ ys) pos =
    (run g f xs pos).bind fun q => (run g f ys q.2).map fun q2 => (q.1 ++ q2.1, q2.2) := by
  intro xs
  induction xs with
  | nil =>
    intro ys pos
    simp only [List.nil_append, run, Option.bind_some]
    cases run g f ys pos <;> rfl
  | cons x xs ih =>
    intro ys pos
    simp only [List.cons_append, run]
    cases randomString g f x pos with
    | none => rfl
    | some q =>
      obtain ⟨s, p⟩ := q
      dsimp only
      rw [ih]
      cases run g f xs p with
      | none => rfl
      | some q2 =>
        simp only [Option.bind_some, Option.map_some]
        cases run g f ys q2.2 <;> rfl

/-- In any process started in the second `sec`, the string given to a request of `n` letters after requests `before` is `made … sec before n`,
whatever is asked for later. -/
theorem made_spec (g : Nat → Nat → Nat) (f sec : Nat) (before later : List Nat) (n : Nat) (ss : List (List Char)) (p : Nat)
    (h : run (g sec) f (before ++ n :: later) 0 = some (ss, p)) :
    made g f sec before n = ss[before.length]? := by
  rw [show before ++ n :: later = (before ++ [n]) ++ later by simp, run_append] at h
  cases h1 : run (g sec) f (before ++ [n]) 0 with
  | none => rw [h1] at h; cases h
  | some q =>
    rw [h1] at h
    simp only [Option.bind_some] at h
    cases h2 : run (g sec) f later q.2 with
    | none => rw [h2] at h; cases h
    | some q2 =>
      rw [h2] at h
      cases h
      have hl := congrArg List.length (run_form (g sec) f _ _ q.1 q.2 h1).1
      simp at hl
      unfold made
      rw [h1]
      simp only [Option.bind_some]
      rw [List.getLast?_eq_getElem?, hl, Nat.add_sub_cancel, List.getElem?_append_left (by omega)]

/-- **C146 is false of the code (1)**: two programs started in the same second make up the same secrets: if they have asked for strings of
the same lengths before, the next string is the same. -/
theorem same_second (g : Nat → Nat → Nat) (f sec : Nat) (before l1 l2 : List Nat) (n : Nat)
    (s1 s2 : List (List Char)) (p1 p2 : Nat)
    (h1 : run (g sec) f (before ++ n :: l1) 0 = some (s1, p1)) (h2 : run (g sec) f (before ++ n :: l2) 0 = some (s2, p2)) :
    s1[before.length]? = s2[before.length]? := by
  rw [← made_spec g f sec before l1 n s1 p1 h1, ← made_spec g f sec before l2 n s2 p2 h2]

/-- Two clients without web interface and without `-secret`, started in the same second, have the same secret
(libcs/client/client.go:451-452): whoever runs one of them has the other's. -/
theorem clients_same_secret (g : Nat → Nat → Nat) (f sec : Nat) (a b : List Char) (p1 p2 : Nat)
    (h1 : randomString (g sec) f 64 0 = some (a, p1)) (h2 : randomString (g sec) f 64 0 = some (b, p2)) : a = b := by
  have := same_second g f sec [] [] [] 64 [a] [b] p1 p2 (by simp [run, h1]) (by simp [run, h2])
  simpa using this

/-- What someone can write down who has the generator (it is Go's) and knows that the program was started in one of the `w`
seconds from `t0` on, and that it asked for one of `hist` before. -/
def guesses (g : Nat → Nat → Nat) (f t0 w : Nat) (hist : List (List Nat)) (n : Nat) : List (Option (List Char)) :=
  (List.range w).flatMap fun i => hist.map fun h => made g f (t0 + i) h n

theorem guesses_length (g : Nat → Nat → Nat) (f t0 w : Nat) (hist : List (List Nat)) (n : Nat) :
    (guesses g f t0 w hist n).length = w * hist.length := by
  unfold guesses
  rw [List.length_flatMap]
  simp only [List.length_map]
  induction w with
  | zero => simp
  | succ w ih =>
    rw [List.range_succ, List.map_append, List.sum_append, ih, Nat.succ_mul]
    simp

/-- **C146 is false of the code (2)**: the string is one of `w * hist.length` guesses. -/
theorem guessable (g : Nat → Nat → Nat) (f t0 w sec : Nat) (hist : List (List Nat)) (before later : List Nat) (n : Nat)
    (ss : List (List Char)) (p : Nat) (h0 : t0 ≤ sec) (h1 : sec < t0 + w) (hb : before ∈ hist)
    (h : run (g sec) f (before ++ n :: later) 0 = some (ss, p)) :
    ss[before.length]? ∈ guesses g f t0 w hist n ∧ (guesses g f t0 w hist n).length = w * hist.length := by
  refine ⟨?_, guesses_length ..⟩
  rw [← made_spec g f sec before later n ss p h]
  unfold guesses
  rw [List.mem_flatMap]
  refine ⟨sec - t0, List.mem_range.2 (by omega), List.mem_map.2 ⟨before, hb, ?_⟩⟩
  rw [show t0 + (sec - t0) = sec by omega]

/-! ## Consequence: the web interface -/

/-- What a server without API makes up at its first start: the signing key (libcs/server/web/web.go:98-100), then the administrator's name
and password (309-316), then the temporary key (320-332); `code` turns strings into the numbers of `Verif.Web.Access`. -/
def firstStart (g : Nat → Nat → Nat) (code : List Char → Nat) (f sec : Nat) (tempLen : Nat) : Option Web.Access.Rand :=
  match run (g sec) f [32, 8, 8, tempLen] 0 with
  | some ([k, a, pw, t], _) => some ⟨code a, code pw, code k, code t⟩
  | _ => none

/-- The names and passwords to try. -/
def logins (g : Nat → Nat → Nat) (code : List Char → Nat) (f t0 w : Nat) : List (Nat × Nat) :=
  (List.range w).map fun i =>
    (((made g f (t0 + i) [32] 8).map code).getD 0, ((made g f (t0 + i) [32, 8] 8).map code).getD 0)

/-- **C146 is false of the code (3)**: a server that is started for the first time in one of `w` known seconds, without credentials in
its options or file: one of `w` logins, which anyone can compute, gets a token with which every endpoint is served. -/
theorem first_start_open (g : Nat → Nat → Nat) (code : List Char → Nat) (hcode : ∀ s, code s ≠ 0) (f t0 w sec tempLen : Nat)
    (s : Web.Access.St) (hfile : s.file = none) (r : Web.Access.Rand) (h0 : t0 ≤ sec) (h1 : sec < t0 + w)
    (hr : firstStart g code f sec tempLen = some r) :
    (logins g code f t0 w).length = w ∧
    ∃ u pw t, (u, pw) ∈ logins g code f t0 w ∧
      (Web.Access.serve (Web.Access.start s ⟨0, 0, 0, false⟩ r) true (.login u pw)).1 = .token t ∧
      ∀ e, (Web.Access.serve (Web.Access.serve (Web.Access.start s ⟨0, 0, 0, false⟩ r) true (.login u pw)).2 true (.api e (some t))).1
        ≠ .invalidToken := by
  refine ⟨by unfold logins; simp, ?_⟩
  unfold firstStart at hr
  split at hr
  · rename_i k a pw t p hrun
    cases hr
    have ha := made_spec g f sec [32] [8, tempLen] 8 _ _ hrun
    have hp := made_spec g f sec [32, 8] [tempLen] 8 _ _ hrun
    have hs : Web.Access.start s ⟨0, 0, 0, false⟩ ⟨code a, code pw, code k, code t⟩ =
        { s with run := ⟨code a, code pw, code k, false⟩, mwKey := code k, mwPprof := false,
                 temp := some { id := code t, until_ := s.now + 180, used := 0, tok := ⟨code k, code a, s.now + 1800⟩ },
                 issued := ⟨code k, code a, s.now + 1800⟩ :: s.issued } := by
      simp [Web.Access.start, hfile, Web.Access.pick, Web.Access.mkTok]
    rw [hs]
    refine ⟨code a, code pw, ⟨code k, code a, s.now + 1800⟩, ?_, ?_, ?_⟩
    · unfold logins
      refine List.mem_map.2 ⟨sec - t0, List.mem_range.2 (by omega), ?_⟩
      rw [show t0 + (sec - t0) = sec by omega, ha, hp]
      rfl
    · simp [Web.Access.serve, hcode, Web.Access.mkTok]
    · intro e
      simp only [Web.Access.serve, hcode, Web.Access.mkTok, false_or, if_false, and_self, if_true]
      have hacc : Web.Access.accepts
          { s with run := ⟨code a, code pw, code k, false⟩, mwKey := code k, mwPprof := false,
                   temp := some { id := code t, until_ := s.now + 180, used := 0, tok := ⟨code k, code a, s.now + 1800⟩ },
                   issued := ⟨code k, code a, s.now + 1800⟩ :: ⟨code k, code a, s.now + 1800⟩ :: s.issued }
          ⟨code k, code a, s.now + 1800⟩ = true := by
        simp [Web.Access.accepts]
      rw [hacc, if_pos rfl]
      cases e <;> simp only [Web.Access.handle] <;> (repeat' split) <;> simp
  · cases hr

/-- A generator with which a first start succeeds. -/
theorem example_first_start :
    (firstStart (fun sec i => (sec * 7919 + i * 104729) % 2 ^ 31) (fun s => s.length + 1) 3 1700000000 32).isSome = true ∧
    made (fun sec i => (sec * 7919 + i * 104729) % 2 ^ 31) 3 1700000000 [32, 8] 8 ≠
      made (fun sec i => (sec * 7919 + i * 104729) % 2 ^ 31) 3 1700000001 [32, 8] 8 := by
  decide +kernel

end Verif.Util.Rand
