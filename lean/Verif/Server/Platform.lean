import Verif.Common
set_option linter.unusedSimpArgs false
set_option linter.unusedVariables false
/-!
# C113, C114: authentication by a platform (`-authAPI`)
(libcs/server/server.go:590-644 `authWithAPI`, 823-850 `authUserWithAPI`; libcs/server/conn.go:130-148 (the check
of the address in `handle`), 428-484 (`handleTunnel` without `authUser`))

With `-authAPI` the server asks a platform, by HTTP, about every tunnel: the request carries the id, the secret
and the host prefixes the tunnel declares, the answer says whether the client is known and which prefixes are
its own.

Simplified: a tunnel's options are parsed (C01, C02) to the list of prefixes it declares, or not at all; the
order in which the prefixes are sent (a Go map) is that of the list; the counters of failures are unbounded
(`uint32` in the code); timers that release an address may run at any moment (when exactly: C21); what follows
the authentication (`addTunnel`) is C24-C28. -/
namespace Verif.Server.Platform

abbrev Text := List Char

/-- A JSON string: characters, or escape sequences with the character they stand for. -/
inductive Piece where
  | plain (c : Char)
  | esc (raw : List Char) (c : Char)
deriving DecidableEq, Repr

/-- the text as it stands in the JSON document, without the quotes -/
def rawText : List Piece → Text
  | [] => []
  | .plain c :: t => c :: rawText t
  | .esc r _ :: t => r ++ rawText t

/-- the text it stands for -/
def content : List Piece → Text
  | [] => []
  | .plain c :: t => c :: content t
  | .esc _ c :: t => c :: content t

/-- An escape sequence has two characters at least (a backslash and another). -/
def WellFormed (s : List Piece) : Prop := ∀ r c, Piece.esc r c ∈ s → 2 ≤ r.length

/-- The field `result` of the answer. -/
inductive Result where
  | bool (b : Bool)
  /-- missing, or no Boolean -/
  | bad
deriving DecidableEq, Repr

/-- The field `appletTokens`. -/
inductive Tokens where
  | absent
  | strings (l : List (List Piece))
  /-- something else, for instance `null` -/
  | bad
deriving DecidableEq, Repr

inductive Answer where
  /-- no connection, no answer in time, or broken off -/
  | fail
  | reply (status : Nat) (result : Result) (tokens : Tokens)
deriving DecidableEq, Repr

/-- libcs/server/server.go:596-644 `authWithAPI`, the part after the request: `none` for an error, otherwise the prefixes granted,
or `some none` if `result` is false. The library hands over a string as it stands in the document (`rawText`). -/
def authWithAPI (id : Text) : Answer → Option (Option (List Text))
  | .fail => none
  | .reply status result tokens =>
    if status ≠ 200 then none
    else match result with
      | .bad => none
      | .bool false => some none
      | .bool true =>
        match tokens with
        | .absent => some (some [id])
        | .strings l => some (some (id :: l.map rawText))
        | .bad => none

/-- One tunnel that wants to be accepted. -/
structure Attempt where
  ip : Nat
  id : Text
  secret : Text
  /-- the prefixes it declares; `none`: the options cannot be parsed -/
  prefixes : Option (List Text)
deriving DecidableEq, Repr

/-- libcs/server/server.go:823-850 `authUserWithAPI`: `none` for an error, otherwise the prefixes of the user. `own`: the credentials the
server's own API uses to test it, whose user has no prefixes. -/
def authUserWithAPI (own : Text → Text → Bool) (id secret : Text) (ans : Answer) : Option (List Text) :=
  if id.length < 1 ∨ secret.length < 1 then none
  else match authWithAPI id ans with
    | none => none
    | some none => if own id secret then some [] else none
    | some (some l) => some l

/-- libcs/server/conn.go:469-483: the prefixes that stay. -/
def kept (id : Text) (granted declared : List Text) : List Text :=
  if granted.length > 0 then declared.filter (fun p => granted.contains p)
  else declared.filter (fun p => p = id)

inductive Outcome where
  /-- closed without an answer: the address is blocked -/
  | blocked
  /-- the options could not be parsed -/
  | malformed
  /-- told that id or secret are invalid -/
  | refused
  /-- goes on to registration with these prefixes -/
  | accepted (prefixes : List Text)
deriving DecidableEq, Repr

structure St where
  /-- `reconnect`: failures per address -/
  count : Nat → Nat := fun _ => 0
  /-- requests to the platform -/
  asked : List (Text × Text × List Text) := []

structure Cfg where
  /-- `reconnectTimes` -/
  times : Nat
  own : Text → Text → Bool

/-- whether the platform is asked: libcs/server/server.go:823-828 -/
def asks (a : Attempt) : Bool := ¬ (a.id.length < 1 ∨ a.secret.length < 1)

/-- libcs/server/conn.go:130-148 and 428-484: one tunnel. -/
def attempt (c : Cfg) (s : St) (a : Attempt) (ans : Answer) : St × Outcome :=
  if s.count a.ip > c.times then (s, .blocked)
  else match a.prefixes with
    | none => (s, .malformed)
    | some ps =>
      let s' := if asks a then { s with asked := s.asked ++ [(a.id, a.secret, ps)] } else s
      match authUserWithAPI c.own a.id a.secret ans with
      | none => ({ s' with count := fun i => if i = a.ip then s'.count i + 1 else s'.count i }, .refused)
      | some granted => (s', .accepted (kept a.id granted ps))

inductive Ev where
  | attempt (a : Attempt) (ans : Answer)
  /-- libcs/server/conn.go:456-463: the timer -/
  | release (ip : Nat)

def step (c : Cfg) (s : St) : Ev → St
  | .attempt a ans => (attempt c s a ans).1
  | .release ip => { s with count := fun i => if i = ip then 0 else s.count i }

def run (c : Cfg) (l : List Ev) : St := l.foldl (step c) {}

/-! ## Specification -/

/-- The platform knows the client; `toks` are its further prefixes. -/
def SaysYes (ans : Answer) (toks : List Text) : Prop :=
  (ans = .reply 200 (.bool true) .absent ∧ toks = []) ∨
  ∃ l, ans = .reply 200 (.bool true) (.strings l) ∧ toks = l.map content

/-- The platform does not know the client. -/
def SaysNo (ans : Answer) : Prop := ∃ t, ans = .reply 200 (.bool false) t

/-- The answer uses no escape sequences. -/
def Plain (ans : Answer) : Prop :=
  ∀ st r l, ans = .reply st r (.strings l) → ∀ s ∈ l, ∀ p ∈ s, ∃ c, p = Piece.plain c

/-- Full property C113: a tunnel is accepted only if the platform knows it (or it is the server's own test), and gets exactly
those of its prefixes that the platform grants. -/
def PlatformDecides (c : Cfg) (s : St) (a : Attempt) (ans : Answer) : Prop :=
  ∀ ps, (attempt c s a ans).2 = .accepted ps →
    (∃ toks, SaysYes ans toks ∧ ∃ d, a.prefixes = some d ∧ ps = d.filter (fun p => p = a.id ∨ p ∈ toks)) ∨
    (SaysNo ans ∧ c.own a.id a.secret = true ∧ ∃ d, a.prefixes = some d ∧ ps = d.filter (fun p => p = a.id))

/-- Full property C114: a client known to the platform is not refused. -/
def KnownNotRefused (c : Cfg) (s : St) (a : Attempt) (known : Text → Text → Bool) (ans : Answer) : Prop :=
  known a.id a.secret = true → (attempt c s a ans).2 ≠ .refused ∧ (attempt c s a ans).2 ≠ .blocked

/-- `SaysNo`, computed -/
def isNo : Answer → Bool
  | .reply st (.bool false) _ => st == 200
  | _ => false

/-- the number of attempts from this address that the platform refused (or that came without id or secret) -/
def refusals (ip : Nat) : List Ev → Nat
  | [] => 0
  | .attempt a ans :: t =>
    (if a.ip = ip ∧ (isNo ans = true ∨ a.id = [] ∨ a.secret = []) then 1 else 0) + refusals ip t
  | .release _ :: t => refusals ip t

/-- Full property C114: an address is blocked only after the platform has refused it more often than allowed. -/
def BlockedOnlyByRefusals (c : Cfg) (l : List Ev) : Prop :=
  ∀ ip, (run c l).count ip > c.times → refusals ip l > c.times

/-! ## Proofs -/

theorem isNo_iff {ans : Answer} : isNo ans = true ↔ SaysNo ans := by
  constructor
  · intro h
    unfold isNo at h
    split at h
    · rename_i st t
      have : st = 200 := by simpa using h
      subst this
      exact ⟨t, rfl⟩
    · simp at h
  · rintro ⟨t, rfl⟩; rfl

theorem raw_plain {s : List Piece} (h : ∀ p ∈ s, ∃ c, p = Piece.plain c) : rawText s = content s := by
  induction s with
  | nil => rfl
  | cons p t ih =>
    obtain ⟨c, rfl⟩ := h p (by simp)
    simp only [rawText, content]
    rw [ih (fun q hq => h q (List.mem_cons_of_mem _ hq))]

theorem raw_longer {s : List Piece} (hw : WellFormed s) :
    (content s).length ≤ (rawText s).length ∧
    ((∃ r c, Piece.esc r c ∈ s) → (content s).length < (rawText s).length) := by
  induction s with
  | nil => simp [rawText, content]
  | cons p t ih =>
    obtain ⟨h1, h2⟩ := ih (fun r c h => hw r c (List.mem_cons_of_mem _ h))
    cases p with
    | plain c =>
      simp only [rawText, content, List.length_cons]
      refine ⟨by omega, ?_⟩
      rintro ⟨r, c', hm⟩
      rcases List.mem_cons.mp hm with hm | hm
      · simp at hm
      · have := h2 ⟨r, c', hm⟩; omega
    | esc r c =>
      have := hw r c (by simp)
      simp only [rawText, content, List.length_cons, List.length_append]
      exact ⟨by omega, fun _ => by omega⟩

/-- What an accepted tunnel means, in every case. -/
theorem accepted_cases {c : Cfg} {s : St} {a : Attempt} {ans : Answer} {ps : List Text}
    (h : (attempt c s a ans).2 = .accepted ps) :
    s.count a.ip ≤ c.times ∧ a.id ≠ [] ∧ a.secret ≠ [] ∧ ∃ d, a.prefixes = some d ∧
      ((∃ g, authWithAPI a.id ans = some (some g) ∧ ps = kept a.id g d) ∨
       (authWithAPI a.id ans = some none ∧ c.own a.id a.secret = true ∧ ps = kept a.id [] d)) := by
  unfold attempt at h
  split at h
  · simp at h
  · rename_i hc
    refine ⟨by omega, ?_⟩
    split at h
    · simp at h
    · rename_i d hd
      simp only at h
      split at h
      · simp at h
      · rename_i g hg
        unfold authUserWithAPI at hg
        split at hg
        · simp at hg
        · rename_i hne
          have h1 : a.id ≠ [] := by intro e; simp [e] at hne
          have h2 : a.secret ≠ [] := by intro e; simp [e] at hne
          refine ⟨h1, h2, d, hd, ?_⟩
          have h := (Outcome.accepted.inj h).symm
          split at hg
          · simp at hg
          · rename_i hn
            split at hg
            · rename_i ho
              cases hg
              exact Or.inr ⟨hn, ho, h⟩
            · simp at hg
          · rename_i hl
            cases hg
            exact Or.inl ⟨_, hl, h⟩

theorem authWithAPI_yes {id : Text} {ans : Answer} {g : List Text} (h : authWithAPI id ans = some (some g)) :
    (ans = .reply 200 (.bool true) .absent ∧ g = [id]) ∨
    ∃ l, ans = .reply 200 (.bool true) (.strings l) ∧ g = id :: l.map rawText := by
  unfold authWithAPI at h
  cases ans with
  | fail => simp at h
  | reply st r t =>
    simp only at h
    split at h
    · simp at h
    · rename_i hst
      have hst : st = 200 := by simpa using hst
      subst hst
      cases r with
      | bad => simp at h
      | bool b =>
        cases b with
        | false => simp at h
        | true => cases t <;> simp at h <;> simp [h]

theorem authWithAPI_no {id : Text} {ans : Answer} (h : authWithAPI id ans = some none) : SaysNo ans := by
  unfold authWithAPI at h
  cases ans with
  | fail => simp at h
  | reply st r t =>
    simp only at h
    split at h
    · simp at h
    · rename_i hst
      have hst : st = 200 := by simpa using hst
      subst hst
      cases r with
      | bad => simp at h
      | bool b =>
        cases b with
        | false => exact ⟨t, rfl⟩
        | true => cases t <;> simp at h

theorem kept_nil (id : Text) (d : List Text) : kept id [] d = d.filter (fun p => p = id) := by
  simp [kept]

theorem kept_cons (id x : Text) (l d : List Text) :
    kept id (x :: l) d = d.filter (fun p => p = x ∨ p ∈ l) := by
  simp only [kept, List.length_cons]
  rw [if_pos (by omega)]
  congr 1
  funext p
  simp [List.contains_eq_mem, List.mem_cons]

/-- **C113** (part) A tunnel is accepted only if the platform knows the client, or if the platform refuses it and it is the
server's own test; and it gets exactly those of its prefixes that are its id or were granted. Missing: tokens with
escape sequences. -/
theorem platform_decides_partial {c : Cfg} {s : St} {a : Attempt} {ans : Answer} (hp : Plain ans) :
    PlatformDecides c s a ans := by
  intro ps h
  obtain ⟨_, _, _, d, hd, hcase⟩ := accepted_cases h
  rcases hcase with ⟨g, hg, hps⟩ | ⟨hn, ho, hps⟩
  · refine Or.inl ?_
    rcases authWithAPI_yes hg with ⟨ha, hg⟩ | ⟨l, ha, hg⟩
    · exact ⟨[], Or.inl ⟨ha, rfl⟩, d, hd, by rw [hps, hg, kept_cons]⟩
    · refine ⟨l.map content, Or.inr ⟨l, ha, rfl⟩, d, hd, ?_⟩
      rw [hps, hg, kept_cons]
      have : l.map rawText = l.map content :=
        List.map_congr_left (fun x hx => raw_plain (hp _ _ l ha x hx))
      rw [this]
  · exact Or.inr ⟨authWithAPI_no hn, ho, d, hd, by rw [hps, kept_nil]⟩

/-- **C113** Whatever the answer looks like, the prefixes are among the declared ones, each is the id or stands
literally in the answer, and a refused client gets nothing. -/
theorem prefixes_from_answer {c : Cfg} {s : St} {a : Attempt} {ans : Answer} {ps : List Text}
    (h : (attempt c s a ans).2 = .accepted ps) :
    (∃ d, a.prefixes = some d ∧ List.Sublist ps d) ∧ ∀ p ∈ ps, p = a.id ∨
      ∃ l, ans = .reply 200 (.bool true) (.strings l) ∧ ∃ x ∈ l, rawText x = p := by
  obtain ⟨_, _, _, d, hd, hcase⟩ := accepted_cases h
  constructor
  · refine ⟨d, hd, ?_⟩
    rcases hcase with ⟨g, hg, hps⟩ | ⟨hn, ho, hps⟩ <;> rw [hps] <;> unfold kept <;> split <;>
      exact List.filter_sublist
  · intro p hp
    rcases hcase with ⟨g, hg, hps⟩ | ⟨hn, ho, hps⟩
    · rcases authWithAPI_yes hg with ⟨ha, hg⟩ | ⟨l, ha, hg⟩
      · rw [hps, hg, kept_cons] at hp
        have := (List.mem_filter.mp hp).2
        simp at this
        exact Or.inl this
      · rw [hps, hg, kept_cons] at hp
        have := (List.mem_filter.mp hp).2
        simp only [decide_eq_true_eq] at this
        rcases this with e | e
        · exact Or.inl e
        · obtain ⟨x, hx, he⟩ := List.mem_map.mp e
          exact Or.inr ⟨l, ha, x, hx, he⟩
    · rw [hps, kept_nil] at hp
      have := (List.mem_filter.mp hp).2
      simp at this
      exact Or.inl this

/-- **C113** Who is accepted: an address that is not blocked, with id and secret and options, if and only if the platform
says yes in a form the server understands, or says no to the server's own test. -/
theorem accepted_iff (c : Cfg) (s : St) (a : Attempt) (ans : Answer) :
    (∃ ps, (attempt c s a ans).2 = .accepted ps) ↔
      s.count a.ip ≤ c.times ∧ a.id ≠ [] ∧ a.secret ≠ [] ∧ a.prefixes ≠ none ∧
      ((∃ toks, SaysYes ans toks) ∨ (SaysNo ans ∧ c.own a.id a.secret = true)) := by
  constructor
  · rintro ⟨ps, h⟩
    obtain ⟨h1, h2, h3, d, hd, hcase⟩ := accepted_cases h
    refine ⟨h1, h2, h3, by simp [hd], ?_⟩
    rcases hcase with ⟨g, hg, _⟩ | ⟨hn, ho, _⟩
    · rcases authWithAPI_yes hg with ⟨ha, _⟩ | ⟨l, ha, _⟩
      · exact Or.inl ⟨[], Or.inl ⟨ha, rfl⟩⟩
      · exact Or.inl ⟨_, Or.inr ⟨l, ha, rfl⟩⟩
    · exact Or.inr ⟨authWithAPI_no hn, ho⟩
  · rintro ⟨h1, h2, h3, h4, hcase⟩
    cases hd : a.prefixes with
    | none => exact absurd hd h4
    | some d =>
      have hlen : ¬ (a.id.length < 1 ∨ a.secret.length < 1) := by
        cases hi : a.id with
        | nil => exact absurd hi h2
        | cons => cases hs : a.secret with
          | nil => exact absurd hs h3
          | cons => simp
      have hu : ∃ g, authUserWithAPI c.own a.id a.secret ans = some g := by
        unfold authUserWithAPI
        rw [if_neg hlen]
        rcases hcase with ⟨toks, ⟨ha, _⟩ | ⟨l, ha, _⟩⟩ | ⟨⟨t, ha⟩, ho⟩ <;> subst ha <;>
          simp [authWithAPI, *]
      obtain ⟨g, hg⟩ := hu
      refine ⟨kept a.id g d, ?_⟩
      unfold attempt
      rw [if_neg (by omega), hd]
      simp only [hg]

/-- **C113** The platform is asked exactly once about every such tunnel, with its id, its secret and all the prefixes it
declares, and about nothing else. -/
theorem asked_exactly (c : Cfg) (s : St) (a : Attempt) (ans : Answer) :
    (attempt c s a ans).1.asked = s.asked ++
      (match a.prefixes with
       | some d => if s.count a.ip ≤ c.times ∧ a.id ≠ [] ∧ a.secret ≠ [] then [(a.id, a.secret, d)] else []
       | none => []) := by
  have hask : asks a = true ↔ a.id ≠ [] ∧ a.secret ≠ [] := by
    unfold asks
    cases a.id <;> cases a.secret <;> simp
  unfold attempt
  split
  · rename_i hc
    cases a.prefixes with
    | none => simp
    | some d => simp only; rw [if_neg (by omega)]; simp
  · rename_i hc
    cases a.prefixes with
    | none => simp
    | some d =>
      simp only
      by_cases hk : asks a = true
      · have := hask.mp hk
        rw [if_pos hk, if_pos ⟨by omega, this⟩]
        split <;> rfl
      · have h' : ¬ (s.count a.ip ≤ c.times ∧ a.id ≠ [] ∧ a.secret ≠ []) := by
          rintro ⟨_, h⟩; exact hk (hask.mpr h)
        rw [if_neg hk, if_neg h']
        split <;> simp

/-- **C113 fails**: a prefix that the platform grants in a string with an escape sequence is not granted. -/
theorem escaped_token_lost {c : Cfg} {s : St} {a : Attempt} {x : List Piece} (hw : WellFormed x)
    (he : ∃ r ch, Piece.esc r ch ∈ x) (hid : content x ≠ a.id) (hc : s.count a.ip ≤ c.times)
    (h2 : a.id ≠ []) (h3 : a.secret ≠ []) (hd : a.prefixes = some [content x]) :
    (attempt c s a (.reply 200 (.bool true) (.strings [x]))).2 = .accepted [] ∧
    ¬ PlatformDecides c s a (.reply 200 (.bool true) (.strings [x])) := by
  obtain ⟨ps, hps⟩ := (accepted_iff c s a (.reply 200 (.bool true) (.strings [x]))).mpr
    ⟨hc, h2, h3, by simp [hd], Or.inl ⟨_, Or.inr ⟨_, rfl, rfl⟩⟩⟩
  have hne : content x ≠ rawText x := by
    intro e
    have := (raw_longer hw).2 he
    rw [e] at this
    omega
  have hnil : ps = [] := by
    obtain ⟨⟨d, hd', hsub⟩, hall⟩ := prefixes_from_answer hps
    rw [hd] at hd'
    cases hd'
    cases ps with
    | nil => rfl
    | cons p t =>
      have hp : p = content x := by
        have := hsub.subset (List.mem_cons_self)
        simpa using this
      rcases hall p (by simp) with h | ⟨l, hl, y, hy, hr⟩
      · exact absurd (hp ▸ h) hid
      · cases hl
        simp at hy
        subst hy
        exact absurd (hp ▸ hr).symm hne
  subst hnil
  refine ⟨hps, ?_⟩
  intro h
  rcases h [] hps with ⟨toks, hy, d, hd', hf⟩ | ⟨⟨t, ht⟩, _⟩
  · rw [hd] at hd'
    cases hd'
    rcases hy with ⟨ha, _⟩ | ⟨l, hl, ht⟩
    · simp at ha
    · cases hl
      subst ht
      simp at hf
  · simp at ht

/-- **C114 fails**: an answer that says yes, but says `null` instead of leaving out the prefixes, is a refusal,
and counts as a failure of the client. -/
theorem null_tokens_refused {c : Cfg} {s : St} {a : Attempt} (hc : s.count a.ip ≤ c.times) (hd : a.prefixes ≠ none) :
    (attempt c s a (.reply 200 (.bool true) .bad)).2 = .refused ∧
    (attempt c s a (.reply 200 (.bool true) .bad)).1.count a.ip = s.count a.ip + 1 := by
  cases hd' : a.prefixes with
  | none => exact absurd hd' hd
  | some d =>
    have : authUserWithAPI c.own a.id a.secret (.reply 200 (.bool true) .bad) = none := by
      unfold authUserWithAPI
      split <;> simp [authWithAPI]
    unfold attempt
    rw [if_neg (by omega), hd']
    simp only [this]
    simp
    split <;> rfl

theorem fail_refused {c : Cfg} {s : St} {a : Attempt} {ans : Answer} (hc : s.count a.ip ≤ c.times)
    (hd : a.prefixes ≠ none) (hans : authWithAPI a.id ans = none) :
    (attempt c s a ans).2 = .refused ∧ (attempt c s a ans).1.count a.ip = s.count a.ip + 1 := by
  cases hd' : a.prefixes with
  | none => exact absurd hd' hd
  | some d =>
    have : authUserWithAPI c.own a.id a.secret ans = none := by
      unfold authUserWithAPI
      split <;> simp [hans]
    unfold attempt
    rw [if_neg (by omega), hd']
    simp only [this]
    simp
    split <;> rfl

theorem blocked_stays {c : Cfg} {s : St} {a : Attempt} {ans : Answer} (hc : s.count a.ip > c.times) :
    attempt c s a ans = (s, .blocked) := by
  unfold attempt
  rw [if_pos hc]

theorem attempt_blocked_iff (c : Cfg) (s : St) (a : Attempt) (ans : Answer) :
    (attempt c s a ans).2 = .blocked ↔ c.times < s.count a.ip := by
  unfold attempt
  by_cases h : s.count a.ip > c.times
  · rw [if_pos h]; exact ⟨fun _ => h, fun _ => rfl⟩
  · rw [if_neg h]
    constructor
    · intro hb
      exfalso
      cases hp : a.prefixes with
      | none => rw [hp] at hb; simp at hb
      | some ps =>
        rw [hp] at hb
        dsimp only at hb
        cases ha : authUserWithAPI c.own a.id a.secret ans with
        | none => rw [ha] at hb; simp at hb
        | some g => rw [ha] at hb; simp at hb
    · intro hb; exact absurd hb h

/-- **C114** The timer frees the address it was set for, and no other. -/
theorem release_frees (c : Cfg) (l : List Ev) (ip : Nat) (a : Attempt) (ans : Answer) :
    (a.ip = ip → (attempt c (run c (l ++ [.release ip])) a ans).2 ≠ .blocked) ∧
    (a.ip ≠ ip → ((attempt c (run c (l ++ [.release ip])) a ans).2 = .blocked ↔
      (attempt c (run c l) a ans).2 = .blocked)) := by
  have hr : run c (l ++ [.release ip]) = step c (run c l) (.release ip) := by simp [run]
  constructor
  · intro h hb
    rw [attempt_blocked_iff, hr] at hb
    simp [step, h] at hb
  · intro h
    rw [attempt_blocked_iff, attempt_blocked_iff, hr]
    simp [step, h]

/-- **C114 fails**: while the platform is out of order (no answer, or an error status), every attempt of a client counts
as a failure; after `reconnectTimes + 1` of them its address is blocked, and remains so when the platform is
back, until the timer releases it (without `reconnectDuration` never). -/
theorem outage_blocks {c : Cfg} {a : Attempt} (hd : a.prefixes ≠ none) {n : Nat} (hn : c.times < n)
    (answers : List Answer) (hl : answers.length = n) (hf : ∀ x ∈ answers, authWithAPI a.id x = none)
    (later : List (Attempt × Answer)) (b : Attempt) (hb : b.ip = a.ip) (ans : Answer) :
    (attempt c (run c (answers.map (Ev.attempt a) ++ later.map (fun p => Ev.attempt p.1 p.2))) b ans).2 =
      .blocked := by
  have key : ∀ (answers : List Answer) (s : St), (∀ x ∈ answers, authWithAPI a.id x = none) →
      min (s.count a.ip + answers.length) (c.times + 1) ≤
        ((answers.map (Ev.attempt a)).foldl (step c) s).count a.ip := by
    intro answers
    induction answers with
    | nil => intro s _; simp; omega
    | cons x t ih =>
      intro s hx
      simp only [List.map_cons, List.foldl_cons, List.length_cons]
      have := ih (step c s (.attempt a x)) (fun y hy => hx y (by simp [hy]))
      refine Nat.le_trans ?_ this
      by_cases hc : s.count a.ip > c.times
      · simp only [step, blocked_stays hc]; omega
      · have hc' : s.count a.ip ≤ c.times := by omega
        have hr := (fail_refused hc' hd (hx x (by simp))).2
        simp only [step, hr]; omega
  have key2 : ∀ (later : List (Attempt × Answer)) (s : St), s.count a.ip > c.times →
      ((later.map (fun p => Ev.attempt p.1 p.2)).foldl (step c) s).count a.ip > c.times := by
    intro later
    induction later with
    | nil => intro s h; exact h
    | cons p t ih =>
      intro s h
      simp only [List.map_cons, List.foldl_cons]
      apply ih
      simp only [step]
      unfold attempt
      split
      · exact h
      · split
        · exact h
        · simp only
          split
          · simp only
            split <;> split <;> simp_all <;> omega
          · split <;> exact h
  have h1 := key answers {} hf
  have h2 := key2 later ((answers.map (Ev.attempt a)).foldl (step c) {}) (by
    have : ({} : St).count a.ip = 0 := rfl
    omega)
  have : run c (answers.map (Ev.attempt a) ++ later.map (fun p => Ev.attempt p.1 p.2)) =
      (later.map (fun p => Ev.attempt p.1 p.2)).foldl (step c) ((answers.map (Ev.attempt a)).foldl (step c) {}) := by
    simp [run, List.foldl_append]
  rw [this, blocked_stays (by rw [hb]; exact h2)]

theorem not_blocked_only_by_refusals (c : Cfg) :
    ∃ l, ¬ BlockedOnlyByRefusals c l := by
  let a : Attempt := ⟨0, ['a'], ['s'], some [['a']]⟩
  refine ⟨(List.replicate (c.times + 1) Answer.fail).map (Ev.attempt a), ?_⟩
  intro h
  have hb := outage_blocks (c := c) (a := a) (by simp [a]) (n := c.times + 1) (by omega)
    (List.replicate (c.times + 1) Answer.fail) (by simp) (by intro x hx; rw [List.eq_of_mem_replicate hx]; rfl)
    [] a rfl .fail
  simp only [List.map_nil, List.append_nil] at hb
  have hcnt : (run c ((List.replicate (c.times + 1) Answer.fail).map (Ev.attempt a))).count 0 > c.times := by
    apply Classical.byContradiction
    intro hn
    have := (fail_refused (c := c) (a := a) (ans := .fail) (by
      show (run c ((List.replicate (c.times + 1) Answer.fail).map (Ev.attempt a))).count 0 ≤ c.times
      omega) (by simp [a]) rfl).1
    rw [hb] at this
    simp at this
  have hr : ∀ k, refusals 0 ((List.replicate k Answer.fail).map (Ev.attempt a)) = 0 := by
    intro k
    induction k with
    | zero => rfl
    | succ k ih => simp only [List.replicate_succ, List.map_cons, refusals]; rw [ih]; simp [a, isNo]
  have := h 0 hcnt
  rw [hr] at this
  omega

/-- **C114** (part) If the platform always answers, and in a form the server understands, an address is blocked only after
the platform has refused it (or it came without id or secret) more often than allowed. -/
theorem blocked_only_by_refusals_partial (c : Cfg) (l : List Ev)
    (h : ∀ a ans, Ev.attempt a ans ∈ l → SaysNo ans ∨ ∃ toks, SaysYes ans toks) : BlockedOnlyByRefusals c l := by
  have key : ∀ (l : List Ev) (s : St) (ip : Nat),
      (∀ a ans, Ev.attempt a ans ∈ l → SaysNo ans ∨ ∃ toks, SaysYes ans toks) →
      (l.foldl (step c) s).count ip ≤ s.count ip + refusals ip l := by
    intro l
    induction l with
    | nil => intro s ip _; simp [refusals]
    | cons e t ih =>
      intro s ip h
      have ht := ih (step c s e) ip (fun a ans hm => h a ans (by simp [hm]))
      simp only [List.foldl_cons]
      refine Nat.le_trans ht ?_
      cases e with
      | release r =>
        simp only [step, refusals]
        split <;> omega
      | attempt a ans =>
        have hans := h a ans (by simp)
        simp only [step, refusals]
        have hle : (attempt c s a ans).1.count ip ≤ s.count ip +
            (if a.ip = ip ∧ (isNo ans = true ∨ a.id = [] ∨ a.secret = []) then 1 else 0) := by
          unfold attempt
          split
          · simp
          · split
            · simp
            · simp only
              split
              · rename_i hnone
                have hbad : isNo ans = true ∨ a.id = [] ∨ a.secret = [] := by
                  rcases hans with ⟨x, hx⟩ | ⟨toks, hy⟩
                  · exact Or.inl (isNo_iff.mpr ⟨x, hx⟩)
                  · right
                    apply Classical.byContradiction
                    intro hc
                    rw [not_or] at hc
                    have hlen : ¬ (a.id.length < 1 ∨ a.secret.length < 1) := by
                      cases hi : a.id with
                      | nil => exact absurd hi hc.1
                      | cons => cases hs : a.secret with
                        | nil => exact absurd hs hc.2
                        | cons => simp
                    unfold authUserWithAPI at hnone
                    rw [if_neg hlen] at hnone
                    rcases hy with ⟨ha, _⟩ | ⟨l, ha, _⟩ <;> subst ha <;> simp [authWithAPI] at hnone
                have hcnt : (if asks a = true then { s with asked := s.asked ++ [(a.id, a.secret, ‹List Text›)] } else s).count
                    = s.count := by split <;> rfl
                simp only [hcnt]
                by_cases hip : ip = a.ip
                · rw [if_pos hip, if_pos ⟨hip.symm, hbad⟩]; omega
                · rw [if_neg hip]; omega
              · split <;> simp
        omega
  intro ip hip
  have := key l {} ip h
  have h0 : ({} : St).count ip = 0 := rfl
  unfold run at hip
  omega

/-- **C114** (part) and a client the platform says yes to is not refused, unless its address is blocked. -/
theorem known_not_refused_partial {c : Cfg} {s : St} {a : Attempt} {ans : Answer} {toks : List Text}
    (hy : SaysYes ans toks) (hc : s.count a.ip ≤ c.times) (h2 : a.id ≠ []) (h3 : a.secret ≠ []) {d : List Text}
    (hd : a.prefixes = some d) :
    ∃ ps, (attempt c s a ans).2 = .accepted ps ∧ (a.id ∈ d → a.id ∈ ps) ∧
      (attempt c s a ans).1.count = s.count := by
  obtain ⟨ps, hps⟩ := (accepted_iff c s a ans).mpr ⟨hc, h2, h3, by simp [hd], Or.inl ⟨toks, hy⟩⟩
  refine ⟨ps, hps, ?_, ?_⟩
  · intro hm
    obtain ⟨_, _, _, d', hd', hcase⟩ := accepted_cases hps
    rw [hd] at hd'
    cases hd'
    rcases hcase with ⟨g, hg, e⟩ | ⟨hn, ho, e⟩
    · rcases authWithAPI_yes hg with ⟨_, hg⟩ | ⟨l, _, hg⟩ <;> rw [e, hg, kept_cons] <;>
        exact List.mem_filter.mpr ⟨hm, by simp⟩
    · rw [e, kept_nil]
      exact List.mem_filter.mpr ⟨hm, by simp⟩
  · unfold attempt at hps ⊢
    split
    · rfl
    · rename_i hc'
      rw [if_neg hc'] at hps
      rw [hd] at hps ⊢
      simp only at hps ⊢
      split
      · rename_i hn; rw [hn] at hps; simp at hps
      · split <;> rfl

/-- **C114 fails** for every known client whenever the platform does not answer. -/
theorem not_known_not_refused {c : Cfg} {s : St} {a : Attempt} {known : Text → Text → Bool}
    (hk : known a.id a.secret = true) (hd : a.prefixes ≠ none) : ¬ KnownNotRefused c s a known .fail := by
  intro h
  obtain ⟨h1, h2⟩ := h hk
  by_cases hc : s.count a.ip > c.times
  · exact h2 (by rw [blocked_stays hc])
  · exact h1 (fail_refused (by omega) hd rfl).1

/-- **C114 fails**: the server's own test of itself (the status page) is refused whenever the platform does not answer "no" with
status 200: for instance if it refuses unknown clients with an error status, as is usual. -/
theorem own_test_refused {c : Cfg} {s : St} {a : Attempt} {ans : Answer} (ho : c.own a.id a.secret = true)
    (hc : s.count a.ip ≤ c.times) (hd : a.prefixes ≠ none) {st : Nat} (hst : st ≠ 200) {r : Result} {t : Tokens} :
    (attempt c s a (.reply st r t)).2 = .refused ∧
      (attempt c s a (.reply st r t)).1.count a.ip = s.count a.ip + 1 :=
  fail_refused hc hd (by simp [authWithAPI, hst])

/-! ## Witnesses -/

def a1 : Attempt := ⟨1, "me".toList, "s".toList, some ["me".toList, "x".toList, "y".toList]⟩
def c1 : Cfg := ⟨3, fun _ _ => false⟩
example : (attempt c1 {} a1 (.reply 200 (.bool true) (.strings [[.plain 'x']]))).2 =
    .accepted ["me".toList, "x".toList] := by decide +kernel
example : Plain (.reply 200 (.bool true) (.strings [[.plain 'x']])) := by
  intro st r l h s hs p hp
  cases h
  simp at hs
  subst hs
  simp at hp
  exact ⟨_, hp⟩
example : (attempt c1 {} a1 (.reply 200 (.bool true) (.strings [[.esc "\\u0078".toList 'x']]))).2 =
    .accepted ["me".toList] := by decide +kernel
example : (attempt c1 {} a1 (.reply 200 (.bool false) .absent)).2 = .refused := by decide +kernel
example : (attempt c1 (run c1 [.attempt a1 .fail, .attempt a1 .fail, .attempt a1 (.reply 500 .bad .bad),
    .attempt a1 .fail]) a1 (.reply 200 (.bool true) .absent)).2 = .blocked := by decide +kernel
example : WellFormed [.esc "\\u0078".toList 'x'] := by
  intro r c h; simp at h; obtain ⟨rfl, _⟩ := h; decide +kernel

end Verif.Server.Platform
