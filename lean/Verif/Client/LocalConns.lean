import Verif.Common
set_option linter.unusedSimpArgs false
set_option linter.unusedVariables false
/-!
# C140: the connections to local services when a tunnel of the client ends
(libcs/client/conn.go:149-160 `Close`, 170-372 `readLoop`, 374-385 `dial`, 387-458 `processServiceData`, 460-505 `processData`;
libcs/client/task.go:221-318)

One tunnel of the client and any number of connections to local services. The goroutine that reads the tunnel (`readLoop`) and those that
read the services (`process`) interleave; what is done under `tasksRWMtx` is one step. Writes to services do not block (C121 has the other
case). An expired read deadline is delivered before the clock moves on. All services have the same `LocalTimeout`.
-/
namespace Verif.Client.LocalConns
open Verif

/-- Where the goroutine that reads the tunnel is. -/
inductive RPc where
  /-- between two frames -/
  | idle
  /-- it has connected to the service for connection `i`, the task is not in `c.tasks` (libcs/client/conn.go:409-423) -/
  | dialed (i : Nat)
  /-- `readLoop` has returned -/
  | ended
deriving DecidableEq, Repr

/-- Where the goroutine of a connection to a service is. -/
inductive TPc where
  /-- not started -/
  | dialed
  /-- in `process` -/
  | reading
  /-- `process` has returned -/
  | gone
  /-- `dial` has failed after it connected: no goroutine, no reference (libcs/client/conn.go:374-385, 409-418) -/
  | lost
deriving DecidableEq, Repr

structure T where
  /-- the number the server gave to the visitor -/
  id : Nat
  pc : TPc
  /-- the connection to the service is open -/
  conn : Bool
  /-- when the read deadline was set -/
  since : Nat
  /-- for the specification: the tunnel was not closed when the task was entered in `c.tasks` -/
  early : Bool
deriving DecidableEq, Repr

structure St where
  /-- `Closing` of the tunnel -/
  closed : Bool
  r : RPc
  ts : List T
  /-- `c.tasks`: which connection has the number -/
  tbl : Nat → Option Nat
  now : Nat
  /-- for the specification: when `readLoop` returned -/
  endedAt : Nat

def init : St := ⟨false, .idle, [], fun _ => none, 0, 0⟩

inductive Ev where
  /-- the first frame of visitor `id`; `dial` succeeds. Frames that were buffered are still handled when the tunnel is closed -/
  | dial (id : Nat)
  /-- the first frame of visitor `id`; `net.Dial` succeeds and `setHost` fails (`UseLocalAsHTTPHost` and an address over 200 bytes) -/
  | dialHost (id : Nat)
  /-- the task is entered in `c.tasks` and `process` started -/
  | register
  /-- `Close`, by `Client.Close` or a goroutine whose write to the tunnel has failed -/
  | close
  /-- `readLoop` returns -/
  | readEnd
  /-- a data frame of visitor `id` -/
  | data (id : Nat)
  /-- a close frame of visitor `id` -/
  | remoteClose (id : Nat)
  /-- the service sends something; `ok`: it could be written to the tunnel -/
  | says (i : Nat) (ok : Bool)
  /-- the service closes the connection -/
  | serviceCloses (i : Nat)
  | expire (i : Nat)
  /-- a read from a connection that was closed -/
  | fail (i : Nat)
  | tick
deriving DecidableEq, Repr

/-- `t.Close()` for connection `i` (libcs/client/task.go:221-239). -/
def shut (ts : List T) (i : Nat) : List T :=
  match ts[i]? with
  | some t => ts.set i { t with conn := false }
  | none => ts

/-- Whether connection `i` is in `c.tasks`. -/
def listed (s : St) (i : Nat) (t : T) : Bool := decide (s.tbl t.id = some i)

/-- `Close` (libcs/client/conn.go:149-160): nothing the second time. -/
def doClose (s : St) : St :=
  if s.closed then s
  else { s with closed := true, ts := s.ts.mapIdx (fun i t => if listed s i t then { t with conn := false } else t) }

/-- The deferred function of `process` (libcs/client/task.go:252-275), without `Close` of the tunnel. -/
def quit (s : St) (i : Nat) (t : T) : St :=
  { s with ts := s.ts.set i { t with pc := .gone, conn := false },
           tbl := fun n => if n = t.id then none else s.tbl n }

/-- The next state, if the event can happen. `D`: `LocalTimeout`, 0 for none. -/
def step (D : Nat) (s : St) : Ev → Option St
  | .dial id =>
    if s.r = .idle then some { s with r := .dialed s.ts.length, ts := s.ts ++ [⟨id, .dialed, true, s.now, false⟩] } else none
  | .dialHost id =>
    if s.r = .idle then some { s with ts := s.ts ++ [⟨id, .lost, true, s.now, false⟩] } else none
  | .register =>
    match s.r with
    | .dialed i =>
      match s.ts[i]? with
      | some t =>
        let ts1 := match s.tbl t.id with | some j => shut s.ts j | none => s.ts
        some { s with r := .idle, ts := ts1.set i { t with pc := .reading, since := s.now, early := !s.closed },
                      tbl := fun n => if n = t.id then some i else s.tbl n }
      | none => none
    | _ => none
  | .close => if s.closed then none else some (doClose s)
  | .readEnd => if s.r = .idle then some { doClose s with r := .ended, endedAt := s.now } else none
  | .data id =>
    if s.r = .idle then
      match s.tbl id with
      | some i =>
        match s.ts[i]? with
        | some t => some { s with ts := s.ts.set i { t with since := if t.conn then s.now else t.since } }
        | none => some s
      | none => some s
    else none
  | .remoteClose id =>
    if s.r = .idle then
      match s.tbl id with
      | some i => some { s with ts := shut s.ts i }
      | none => some s
    else none
  | .says i ok =>
    match s.ts[i]? with
    | some t =>
      if t.pc = .reading ∧ t.conn = true then
        if ok then
          if s.closed then none else some { s with ts := s.ts.set i { t with since := s.now } }
        else some (doClose (quit s i t))
      else none
    | none => none
  | .serviceCloses i =>
    match s.ts[i]? with
    | some t => if t.pc = .reading ∧ t.conn = true then some (quit s i t) else none
    | none => none
  | .expire i =>
    match s.ts[i]? with
    | some t => if t.pc = .reading ∧ 0 < D ∧ t.since + D ≤ s.now then some (quit s i t) else none
    | none => none
  | .fail i =>
    match s.ts[i]? with
    | some t => if t.pc = .reading ∧ t.conn = false then some (quit s i t) else none
    | none => none
  | .tick =>
    if D = 0 ∨ s.ts.all (fun t => decide (t.pc ≠ .reading ∨ s.now < t.since + D)) = true then some { s with now := s.now + 1 } else none

def run (D : Nat) : St → List Ev → Option St
  | s, [] => some s
  | s, e :: es => match step D s e with
    | some s' => run D s' es
    | none => none

def Reachable (D : Nat) (s : St) : Prop := ∃ es, run D init es = some s

/-! ## Specification -/

/-- No number was given to two visitors. -/
def OwnNumbers (s : St) : Prop := ∀ (i j : Nat) (a b : T), s.ts[i]? = some a → s.ts[j]? = some b → a.id = b.id → i = j

/-! ## Proofs -/

theorem run_append {D : Nat} {s : St} (a b : List Ev) : run D s (a ++ b) = (run D s a).bind (fun s' => run D s' b) := by
  induction a generalizing s with
  | nil => rfl
  | cons e a ih =>
    simp only [List.cons_append, run]
    cases step D s e with
    | none => rfl
    | some s' => exact ih

theorem run_ind {D : Nat} {P : St → Prop} (hs : ∀ s e s', P s → step D s e = some s' → P s') :
    ∀ (es : List Ev) (s s' : St), P s → run D s es = some s' → P s' := by
  intro es
  induction es with
  | nil => intro s s' h hr; simp [run] at hr; subst hr; exact h
  | cons e es ih =>
    intro s s' h hr
    simp only [run] at hr
    cases hst : step D s e with
    | none => rw [hst] at hr; cases hr
    | some s1 => rw [hst] at hr; exact ih s1 s' (hs s e s1 h hst) hr

theorem reach_ind {D : Nat} {P : St → Prop} (h0 : P init) (hs : ∀ s e s', P s → step D s e = some s' → P s') :
    ∀ s, Reachable D s → P s := by
  rintro s ⟨es, hr⟩
  exact run_ind hs es init s h0 hr

/-- What a step does to connection `i`. -/
inductive TC (s s' : St) (i : Nat) (t : T) : T → Prop
  | same : TC s s' i t t
  | shut (n : Nat) (h : s.tbl n = some i) : TC s s' i t { t with conn := false }
  | renew (hc : t.conn = true) (h : s.r = .idle ∨ s.closed = false) : TC s s' i t { t with since := s.now }
  | reg (h : s.r = .dialed i) (h' : s'.tbl t.id = some i) : TC s s' i t { t with pc := .reading, since := s.now, early := !s.closed }
  | quit (h : t.pc = .reading) : TC s s' i t { t with pc := .gone, conn := false }

/-- A connection that was not there before. -/
def Fresh (s s' : St) (i : Nat) (t : T) : Prop :=
  i = s.ts.length ∧ t.conn = true ∧ t.early = false ∧ (t.pc = .dialed ∧ s'.r = .dialed i ∨ t.pc = .lost ∧ s'.r = .idle)

def Evolve (s s' : St) : Prop :=
  ∀ (i : Nat) (t' : T), s'.ts[i]? = some t' → (∃ t, s.ts[i]? = some t ∧ TC s s' i t t') ∨ Fresh s s' i t'

theorem shut_get {ts : List T} {j i : Nat} {t' : T} (h : (shut ts j)[i]? = some t') :
    ∃ t, ts[i]? = some t ∧ (t' = t ∨ i = j ∧ t' = { t with conn := false }) := by
  unfold shut at h
  cases hj : ts[j]? with
  | none => rw [hj] at h; exact ⟨t', h, .inl rfl⟩
  | some u =>
    rw [hj] at h
    dsimp only at h
    by_cases hij : j = i
    · subst hij
      have hl : j < ts.length := by
        rcases Nat.lt_or_ge j ts.length with h1 | h1
        · exact h1
        · rw [List.getElem?_eq_none h1] at hj; cases hj
      rw [List.getElem?_set_self hl] at h
      cases h
      exact ⟨u, hj, .inr ⟨rfl, rfl⟩⟩
    · rw [List.getElem?_set_ne hij] at h
      exact ⟨t', h, .inl rfl⟩

theorem shut_length (ts : List T) (j : Nat) : (shut ts j).length = ts.length := by
  unfold shut
  split <;> simp

theorem set_get {ts : List T} {j i : Nat} {v t' : T} (h : (ts.set j v)[i]? = some t') :
    (i = j ∧ t' = v ∧ j < ts.length) ∨ (i ≠ j ∧ ts[i]? = some t') := by
  by_cases hij : j = i
  · subst hij
    rcases Nat.lt_or_ge j ts.length with h1 | h1
    · rw [List.getElem?_set_self h1] at h
      cases h
      exact .inl ⟨rfl, rfl, h1⟩
    · rw [List.getElem?_eq_none (by simpa using h1)] at h; cases h
  · rw [List.getElem?_set_ne hij] at h
    exact .inr ⟨fun x => hij x.symm, h⟩

theorem append_get {ts : List T} {v t' : T} {i : Nat} (h : (ts ++ [v])[i]? = some t') :
    ts[i]? = some t' ∨ (i = ts.length ∧ t' = v) := by
  rcases Nat.lt_trichotomy i ts.length with h1 | h1 | h1
  · rw [List.getElem?_append_left h1] at h; exact .inl h
  · subst h1
    simp at h
    exact .inr ⟨rfl, h.symm⟩
  · rw [List.getElem?_eq_none (by simp; omega)] at h; cases h

theorem doClose_get {s : St} {i : Nat} {t' : T} (h : (doClose s).ts[i]? = some t') :
    ∃ t, s.ts[i]? = some t ∧ (t' = t ∧ (s.closed = true ∨ listed s i t = false) ∨
      s.tbl t.id = some i ∧ t' = { t with conn := false }) := by
  unfold doClose at h
  cases hc : s.closed with
  | true => simp only [hc, if_true] at h; exact ⟨t', h, .inl ⟨rfl, .inl rfl⟩⟩
  | false =>
    simp only [hc, Bool.false_eq_true, if_false, List.getElem?_mapIdx, Option.map_eq_some_iff] at h
    obtain ⟨t, ht, rfl⟩ := h
    refine ⟨t, ht, ?_⟩
    cases hl : listed s i t with
    | true => right; exact ⟨by simpa [listed] using hl, by simp⟩
    | false => left; simp

theorem doClose_closed (s : St) : (doClose s).closed = true := by
  unfold doClose; split
  · assumption
  · rfl

theorem doClose_r (s : St) : (doClose s).r = s.r ∧ (doClose s).now = s.now ∧ (doClose s).tbl = s.tbl ∧ (doClose s).endedAt = s.endedAt := by
  unfold doClose; split <;> exact ⟨rfl, rfl, rfl, rfl⟩

theorem doClose_length (s : St) : (doClose s).ts.length = s.ts.length := by
  unfold doClose; split <;> simp

theorem quit_evolve {s : St} {j : Nat} {u : T} (hj : s.ts[j]? = some u) (hu : u.pc = .reading) : Evolve s (quit s j u) := by
  intro i t' h
  rcases set_get h with ⟨rfl, rfl, _⟩ | ⟨_, h⟩
  · exact .inl ⟨u, hj, .quit hu⟩
  · exact .inl ⟨t', h, .same⟩

/-- The parts of the state other than the list of connections. -/
inductive Frame (D : Nat) (s s' : St) : Prop
  | quiet (h1 : s'.r = s.r) (h2 : s'.endedAt = s.endedAt) (h3 : s'.now = s.now) (h4 : s.closed = true → s'.closed = true)
  | dial (h1 : s.r = .idle) (h2 : s'.endedAt = s.endedAt) (h3 : s'.now = s.now) (h4 : s'.closed = s.closed) (h5 : s'.r = .dialed s.ts.length)
  | reg (h1 : s'.r = .idle) (h2 : s'.endedAt = s.endedAt) (h3 : s'.now = s.now) (h4 : s'.closed = s.closed) (i : Nat) (h5 : s.r = .dialed i)
      (h6 : ∀ t', s'.ts[i]? = some t' → t'.pc = .reading)
  | fin (h0 : s.r = .idle) (h1 : s'.r = .ended) (h2 : s'.endedAt = s.now) (h3 : s'.now = s.now) (h4 : s'.closed = true)
  | tick (h1 : s'.r = s.r) (h2 : s'.endedAt = s.endedAt) (h3 : s'.now = s.now + 1) (h4 : s'.closed = s.closed) (h5 : s'.ts = s.ts)
      (h6 : D = 0 ∨ s.ts.all (fun t => decide (t.pc ≠ .reading ∨ s.now < t.since + D)) = true)

/-- What a step does to `c.tasks`. -/
def TblEv (s s' : St) : Prop := ∀ n i, s'.tbl n = some i → s.tbl n = some i ∨ s.r = .dialed i

theorem evolve {D : Nat} {s s' : St} {e : Ev} (h : step D s e = some s') : Evolve s s' ∧ Frame D s s' := by
  cases e with
  | dial id =>
    simp only [step] at h
    split at h <;> simp at h; subst h; rename_i hr
    refine ⟨?_, .dial hr rfl rfl rfl rfl⟩
    intro i t' ht
    rcases append_get ht with h1 | ⟨h1, rfl⟩
    · exact .inl ⟨t', h1, .same⟩
    · exact .inr ⟨h1, rfl, rfl, .inl ⟨rfl, by rw [h1]⟩⟩
  | dialHost id =>
    simp only [step] at h
    split at h <;> simp at h; subst h; rename_i hr
    refine ⟨?_, .quiet rfl rfl rfl (fun x => x)⟩
    intro i t' ht
    rcases append_get ht with h1 | ⟨h1, rfl⟩
    · exact .inl ⟨t', h1, .same⟩
    · exact .inr ⟨h1, rfl, rfl, .inr ⟨rfl, hr⟩⟩
  | register =>
    simp only [step] at h
    split at h
    · rename_i j hr
      split at h
      · rename_i u hu
        simp at h; subst h
        refine ⟨?_, .reg rfl rfl rfl rfl j hr ?_⟩
        rotate_left
        · intro t' ht
          rcases set_get ht with ⟨_, rfl, _⟩ | ⟨h1, _⟩
          · rfl
          · exact absurd rfl h1
        intro i t' ht
        rcases set_get ht with ⟨rfl, rfl, _⟩ | ⟨_, ht⟩
        · exact .inl ⟨u, hu, .reg hr (by simp)⟩
        · left
          split at ht
          · rename_i k hk
            obtain ⟨t, h1, rfl | ⟨rfl, rfl⟩⟩ := shut_get ht
            · exact ⟨t', h1, .same⟩
            · exact ⟨t, h1, .shut _ hk⟩
          · exact ⟨t', ht, .same⟩
      · simp at h
    · simp at h
  | close =>
    simp only [step] at h
    split at h <;> simp at h; subst h
    obtain ⟨h1, h2, h3, h4⟩ := doClose_r s
    refine ⟨?_, .quiet h1 h4 h2 (fun _ => doClose_closed s)⟩
    intro i t' ht
    obtain ⟨t, h5, ⟨rfl, _⟩ | ⟨h6, rfl⟩⟩ := doClose_get ht
    · exact .inl ⟨t', h5, .same⟩
    · exact .inl ⟨t, h5, .shut _ h6⟩
  | readEnd =>
    simp only [step] at h
    split at h <;> simp at h; subst h; rename_i hr
    obtain ⟨h1, h2, h3, h4⟩ := doClose_r s
    refine ⟨?_, .fin hr rfl rfl h2 (doClose_closed s)⟩
    intro i t' ht
    obtain ⟨t, h5, ⟨rfl, _⟩ | ⟨h6, rfl⟩⟩ := doClose_get ht
    · exact .inl ⟨t', h5, .same⟩
    · exact .inl ⟨t, h5, .shut _ h6⟩
  | data id =>
    simp only [step] at h
    split at h
    · rename_i hr
      split at h
      · split at h
        · rename_i j _ u hu
          simp at h; subst h
          refine ⟨?_, .quiet rfl rfl rfl (fun x => x)⟩
          intro i t' ht
          rcases set_get ht with ⟨rfl, rfl, _⟩ | ⟨_, ht⟩
          · left
            refine ⟨u, hu, ?_⟩
            cases hc : u.conn with
            | true => simp only [if_true]; exact hc ▸ .renew hc (.inl hr)
            | false => simp only [Bool.false_eq_true, if_false]; exact hc ▸ .same
          · exact .inl ⟨t', ht, .same⟩
        · simp at h; subst h
          exact ⟨fun i t' ht => .inl ⟨t', ht, .same⟩, .quiet rfl rfl rfl (fun x => x)⟩
      · simp at h; subst h
        exact ⟨fun i t' ht => .inl ⟨t', ht, .same⟩, .quiet rfl rfl rfl (fun x => x)⟩
    · simp at h
  | remoteClose id =>
    simp only [step] at h
    split at h
    · split at h
      · rename_i k hk
        simp at h; subst h
        refine ⟨?_, .quiet rfl rfl rfl (fun x => x)⟩
        intro i t' ht
        obtain ⟨t, h5, rfl | ⟨rfl, rfl⟩⟩ := shut_get ht
        · exact .inl ⟨t', h5, .same⟩
        · exact .inl ⟨t, h5, .shut _ hk⟩
      · simp at h; subst h
        exact ⟨fun i t' ht => .inl ⟨t', ht, .same⟩, .quiet rfl rfl rfl (fun x => x)⟩
    · simp at h
  | says j ok =>
    simp only [step] at h
    split at h
    · rename_i u hu
      split at h
      · rename_i hp
        cases ok with
        | true =>
          simp only [if_true] at h
          split at h
          · simp at h
          · rename_i hc
            simp at h; subst h
            refine ⟨?_, .quiet rfl rfl rfl (fun x => x)⟩
            intro i t' ht
            rcases set_get ht with ⟨rfl, rfl, _⟩ | ⟨_, ht⟩
            · exact .inl ⟨u, hu, .renew hp.2 (.inr (by simpa using hc))⟩
            · exact .inl ⟨t', ht, .same⟩
        | false =>
          simp at h; subst h
          obtain ⟨h1, h2, h3, h4⟩ := doClose_r (quit s j u)
          refine ⟨?_, .quiet h1 h4 h2 (fun _ => doClose_closed _)⟩
          intro i t' ht
          obtain ⟨t, h5, h6⟩ := doClose_get ht
          rcases set_get h5 with ⟨rfl, rfl, _⟩ | ⟨_, h5⟩
          · have : t' = { u with pc := .gone, conn := false } := by
              rcases h6 with ⟨h6, _⟩ | ⟨_, h6⟩ <;> exact h6
            subst this
            exact .inl ⟨u, hu, .quit hp.1⟩
          · rcases h6 with ⟨rfl, _⟩ | ⟨h6, rfl⟩
            · exact .inl ⟨t', h5, .same⟩
            · have h7 : s.tbl t.id = some i := by
                simp only [quit] at h6
                split at h6
                · cases h6
                · exact h6
              exact .inl ⟨t, h5, .shut _ h7⟩
      · simp at h
    · simp at h
  | serviceCloses j =>
    simp only [step] at h
    split at h
    · rename_i u hu
      split at h
      · rename_i hp
        simp at h; subst h
        exact ⟨quit_evolve hu hp.1, .quiet rfl rfl rfl (fun x => x)⟩
      · simp at h
    · simp at h
  | expire j =>
    simp only [step] at h
    split at h
    · rename_i u hu
      split at h
      · rename_i hp
        simp at h; subst h
        exact ⟨quit_evolve hu hp.1, .quiet rfl rfl rfl (fun x => x)⟩
      · simp at h
    · simp at h
  | fail j =>
    simp only [step] at h
    split at h
    · rename_i u hu
      split at h
      · rename_i hp
        simp at h; subst h
        exact ⟨quit_evolve hu hp.1, .quiet rfl rfl rfl (fun x => x)⟩
      · simp at h
    · simp at h
  | tick =>
    simp only [step] at h
    split at h <;> rename_i hc <;> simp at h; subst h
    exact ⟨fun i t' ht => .inl ⟨t', ht, .same⟩, .tick rfl rfl rfl rfl rfl hc⟩

theorem tbl_same {D : Nat} {s s' : St} {e : Ev} (he : e ≠ .register) (h : step D s e = some s') {n i : Nat}
    (hn : s'.tbl n = some i) : s.tbl n = some i := by
  cases e with
  | register => exact absurd rfl he
  | close =>
    simp only [step] at h
    split at h <;> simp at h; subst h
    rw [(doClose_r s).2.2.1] at hn
    exact hn
  | readEnd =>
    simp only [step] at h
    split at h <;> simp at h; subst h
    dsimp only at hn
    rw [(doClose_r s).2.2.1] at hn
    exact hn
  | says j ok =>
    simp only [step] at h
    split at h
    · split at h
      · cases ok with
        | true =>
          simp only [if_true] at h
          split at h <;> simp at h
          subst h; exact hn
        | false =>
          simp at h; subst h
          rw [(doClose_r _).2.2.1] at hn
          simp only [quit] at hn
          split at hn
          · cases hn
          · exact hn
      · simp at h
    · simp at h
  | dial id => simp only [step] at h; split at h <;> simp at h; subst h; exact hn
  | dialHost id => simp only [step] at h; split at h <;> simp at h; subst h; exact hn
  | data id =>
    simp only [step] at h
    split at h
    · split at h
      · split at h <;> simp at h <;> subst h <;> exact hn
      · simp at h; subst h; exact hn
    · simp at h
  | remoteClose id =>
    simp only [step] at h
    split at h
    · split at h <;> simp at h <;> subst h <;> exact hn
    · simp at h
  | serviceCloses j =>
    simp only [step] at h
    split at h
    · split at h <;> simp at h
      subst h
      simp only [quit] at hn
      split at hn
      · cases hn
      · exact hn
    · simp at h
  | expire j =>
    simp only [step] at h
    split at h
    · split at h <;> simp at h
      subst h
      simp only [quit] at hn
      split at hn
      · cases hn
      · exact hn
    · simp at h
  | fail j =>
    simp only [step] at h
    split at h
    · split at h <;> simp at h
      subst h
      simp only [quit] at hn
      split at hn
      · cases hn
      · exact hn
    · simp at h
  | tick => simp only [step] at h; split at h <;> simp at h; subst h; exact hn

theorem tblEv {D : Nat} {s s' : St} {e : Ev} (h : step D s e = some s') : TblEv s s' := by
  intro n i hn
  cases e with
  | register =>
    simp only [step] at h
    split at h
    · rename_i j hr
      split at h
      · simp at h; subst h
        dsimp only at hn
        split at hn
        · cases hn; exact .inr hr
        · exact .inl hn
      · simp at h
    · simp at h
  | _ => exact .inl (tbl_same (by simp) h hn)

/-- What holds of every connection, whatever the numbers. -/
structure Inv (s : St) : Prop where
  gone : ∀ (i : Nat) (t : T), s.ts[i]? = some t → t.pc = .gone → t.conn = false
  young : ∀ (i : Nat) (t : T), s.ts[i]? = some t → t.pc = .dialed ∨ t.pc = .lost → t.early = false
  dialed : ∀ (i : Nat) (t : T), s.ts[i]? = some t → t.pc = .dialed → s.r = .dialed i ∧ t.conn = true
  lost : ∀ (i : Nat) (t : T), s.ts[i]? = some t → t.pc = .lost → s.r ≠ .dialed i ∧ (∀ n, s.tbl n ≠ some i) ∧ t.conn = true
  bound : (∀ i, s.r = .dialed i → i < s.ts.length ∧ ∀ n, s.tbl n ≠ some i) ∧ ∀ n i, s.tbl n = some i → i < s.ts.length
  ended : s.r = .ended → s.closed = true ∧ s.endedAt ≤ s.now
  late : s.r = .ended → ∀ (i : Nat) (t : T), s.ts[i]? = some t → t.pc = .reading → t.conn = true → t.since ≤ s.endedAt
  past : ∀ (i : Nat) (t : T), s.ts[i]? = some t → t.pc = .reading → t.conn = true → t.since ≤ s.now

theorem grow {D : Nat} {s s' : St} {e : Ev} (h : step D s e = some s') :
    s.ts.length ≤ s'.ts.length ∧ ∀ i, s'.r = .dialed i → s.r = .dialed i ∨ i = s.ts.length ∧ s'.ts.length = s.ts.length + 1 := by
  cases e with
  | dial id =>
    simp only [step] at h
    split at h <;> simp at h; subst h
    refine ⟨by simp, fun i hi => .inr ?_⟩
    simp at hi
    simp [hi]
  | dialHost id =>
    simp only [step] at h
    split at h <;> simp at h; subst h
    exact ⟨by simp, fun i hi => .inl hi⟩
  | register =>
    simp only [step] at h
    split at h
    · split at h
      · simp at h; subst h
        refine ⟨?_, fun i hi => by simp at hi⟩
        dsimp only
        rw [List.length_set]
        split
        · rw [shut_length]; exact Nat.le_refl _
        · exact Nat.le_refl _
      · simp at h
    · simp at h
  | close =>
    simp only [step] at h
    split at h <;> simp at h; subst h
    rw [doClose_length, (doClose_r s).1]
    exact ⟨Nat.le_refl _, fun i hi => .inl hi⟩
  | readEnd =>
    simp only [step] at h
    split at h <;> simp at h; subst h
    dsimp only
    rw [doClose_length]
    exact ⟨Nat.le_refl _, fun i hi => by simp at hi⟩
  | data id =>
    simp only [step] at h
    split at h
    · split at h
      · split at h <;> simp at h <;> subst h <;> exact ⟨by simp, fun i hi => .inl hi⟩
      · simp at h; subst h; exact ⟨by simp, fun i hi => .inl hi⟩
    · simp at h
  | remoteClose id =>
    simp only [step] at h
    split at h
    · split at h <;> simp at h <;> subst h
      · exact ⟨by simp [shut_length], fun i hi => .inl hi⟩
      · exact ⟨by simp, fun i hi => .inl hi⟩
    · simp at h
  | says j ok =>
    simp only [step] at h
    split at h
    · split at h
      · cases ok with
        | true =>
          simp only [if_true] at h
          split at h <;> simp at h
          subst h; exact ⟨by simp, fun i hi => .inl hi⟩
        | false =>
          simp at h; subst h
          rw [doClose_length, (doClose_r _).1]
          exact ⟨by simp [quit], fun i hi => .inl hi⟩
      · simp at h
    · simp at h
  | serviceCloses j =>
    simp only [step] at h
    split at h
    · split at h <;> simp at h
      subst h; exact ⟨by simp [quit], fun i hi => .inl hi⟩
    · simp at h
  | expire j =>
    simp only [step] at h
    split at h
    · split at h <;> simp at h
      subst h; exact ⟨by simp [quit], fun i hi => .inl hi⟩
    · simp at h
  | fail j =>
    simp only [step] at h
    split at h
    · split at h <;> simp at h
      subst h; exact ⟨by simp [quit], fun i hi => .inl hi⟩
    · simp at h
  | tick => simp only [step] at h; split at h <;> simp at h; subst h; exact ⟨Nat.le_refl _, fun i hi => .inl hi⟩

theorem lt_of_get {ts : List T} {i : Nat} {t : T} (h : ts[i]? = some t) : i < ts.length := by
  rcases Nat.lt_or_ge i ts.length with h1 | h1
  · exact h1
  · rw [List.getElem?_eq_none h1] at h; cases h

theorem inv_init : Inv init := by
  refine ⟨?_, ?_, ?_, ?_, ⟨?_, ?_⟩, ?_, ?_, ?_⟩ <;> simp [init]

theorem tbl_bound {D : Nat} {s s' : St} {e : Ev} (hi : Inv s) (h : step D s e = some s') :
    ∀ n i, s'.tbl n = some i → i < s.ts.length := by
  intro n i hn
  rcases tblEv h n i hn with h1 | h1
  · exact hi.bound.2 n i h1
  · exact (hi.bound.1 i h1).1

theorem inv_step {D : Nat} {s s' : St} {e : Ev} (hi : Inv s) (h : step D s e = some s') : Inv s' := by
  obtain ⟨ev, fr⟩ := evolve h
  obtain ⟨gl, gr⟩ := grow h
  have tb := tbl_bound hi h
  have te := tblEv h
  have hnow : s.now ≤ s'.now := by cases fr <;> omega
  refine ⟨?_, ?_, ?_, ?_, ⟨?_, ?_⟩, ?_, ?_, ?_⟩
  · intro i t' ht hp
    rcases ev i t' ht with ⟨t, h1, h2⟩ | ⟨_, _, _, h3⟩
    · cases h2 with
      | same => exact hi.gone i _ h1 hp
      | shut => rfl
      | renew => exact hi.gone i t h1 hp
      | reg => cases hp
      | quit => rfl
    · rcases h3 with ⟨h3, _⟩ | ⟨h3, _⟩ <;> rw [h3] at hp <;> cases hp
  · intro i t' ht hp
    rcases ev i t' ht with ⟨t, h1, h2⟩ | ⟨_, _, h3, _⟩
    · cases h2 with
      | same => exact hi.young i _ h1 hp
      | shut => exact hi.young i t h1 hp
      | renew => exact hi.young i t h1 hp
      | reg => rcases hp with hp | hp <;> cases hp
      | quit => rcases hp with hp | hp <;> cases hp
    · exact h3
  · intro i t' ht hp
    rcases ev i t' ht with ⟨t, h1, h2⟩ | ⟨_, hc, _, h3⟩
    · have key : t.pc = .dialed ∧ (t'.conn = t.conn ∨ ∃ n, s.tbl n = some i) := by
        cases h2 with
        | same => exact ⟨hp, .inl rfl⟩
        | shut n hn => exact ⟨hp, .inr ⟨n, hn⟩⟩
        | renew => exact ⟨hp, .inl rfl⟩
        | reg => cases hp
        | quit => cases hp
      obtain ⟨kp, kc⟩ := key
      obtain ⟨h4, h5⟩ := hi.dialed i t h1 kp
      have h6 : t'.conn = true := by
        rcases kc with kc | ⟨n, kc⟩
        · rw [kc]; exact h5
        · exact absurd kc ((hi.bound.1 i h4).2 n)
      refine ⟨?_, h6⟩
      cases fr with
      | quiet h7 => rw [h7]; exact h4
      | dial h7 => rw [h7] at h4; cases h4
      | reg h7 _ _ _ j h8 h9 =>
        rw [h8] at h4
        cases h4
        have := h9 t' ht
        rw [hp] at this; cases this
      | fin h7 => rw [h7] at h4; cases h4
      | tick h7 => rw [h7]; exact h4
    · rcases h3 with ⟨_, h4⟩ | ⟨h3, _⟩
      · exact ⟨h4, hc⟩
      · rw [h3] at hp; cases hp
  · intro i t' ht hp
    rcases ev i t' ht with ⟨t, h1, h2⟩ | ⟨h0, hc, _, h3⟩
    · have key : t.pc = .lost ∧ (t'.conn = t.conn ∨ ∃ n, s.tbl n = some i) := by
        cases h2 with
        | same => exact ⟨hp, .inl rfl⟩
        | shut n hn => exact ⟨hp, .inr ⟨n, hn⟩⟩
        | renew => exact ⟨hp, .inl rfl⟩
        | reg => cases hp
        | quit => cases hp
      obtain ⟨kp, kc⟩ := key
      obtain ⟨h4, h5, h6⟩ := hi.lost i t h1 kp
      refine ⟨?_, ?_, ?_⟩
      · intro hr
        rcases gr i hr with h7 | ⟨h7, _⟩
        · exact h4 h7
        · have := lt_of_get h1; omega
      · intro n hn
        rcases te n i hn with h7 | h7
        · exact h5 n h7
        · exact h4 h7
      · rcases kc with kc | ⟨n, kc⟩
        · rw [kc]; exact h6
        · exact absurd kc (h5 n)
    · rcases h3 with ⟨h3, _⟩ | ⟨_, h4⟩
      · rw [h3] at hp; cases hp
      · refine ⟨by rw [h4]; simp, ?_, hc⟩
        intro n hn
        have := tb n i hn
        omega
  · intro i hr
    rcases gr i hr with h1 | ⟨h1, h2⟩
    · refine ⟨Nat.lt_of_lt_of_le (hi.bound.1 i h1).1 gl, ?_⟩
      intro n hn
      rcases te n i hn with h3 | h3
      · exact (hi.bound.1 i h1).2 n h3
      · -- only `register` enters `i`, and then the reader is between two frames
        cases e with
        | register =>
          simp only [step] at h
          split at h
          · split at h
            · simp at h; subst h; cases hr
            · simp at h
          · simp at h
        | _ =>
          rcases Classical.em (s.tbl n = some i) with h4 | h4
          · exact (hi.bound.1 i h1).2 n h4
          · exact h4 (tbl_same (by simp) h hn)
    · refine ⟨by omega, ?_⟩
      intro n hn
      have := tb n i hn
      omega
  · intro n i hn
    exact Nat.lt_of_lt_of_le (tb n i hn) gl
  · intro hr
    cases fr with
    | quiet h1 h2 h3 h4 =>
      rw [h1] at hr
      obtain ⟨h5, h6⟩ := hi.ended hr
      exact ⟨h4 h5, by omega⟩
    | dial _ _ _ _ h5 => rw [h5] at hr; cases hr
    | reg h1 => rw [h1] at hr; cases hr
    | fin _ _ h2 h3 h4 => exact ⟨h4, by omega⟩
    | tick h1 h2 h3 h4 =>
      rw [h1] at hr
      obtain ⟨h5, h6⟩ := hi.ended hr
      exact ⟨by rw [h4]; exact h5, by omega⟩
  · intro hr i t' ht hp hc
    cases fr with
    | quiet h1 h2 h3 h4 =>
      rw [h1] at hr
      rw [h2]
      rcases ev i t' ht with ⟨t, h5, h6⟩ | ⟨_, _, _, h7⟩
      · cases h6 with
        | same => exact hi.late hr i _ h5 hp hc
        | shut => cases hc
        | renew _ h7 =>
          rcases h7 with h7 | h7
          · rw [hr] at h7; cases h7
          · rw [(hi.ended hr).1] at h7; cases h7
        | reg h7 => rw [hr] at h7; cases h7
        | quit => cases hp
      · rcases h7 with ⟨h7, _⟩ | ⟨h7, _⟩ <;> rw [h7] at hp <;> cases hp
    | dial _ _ _ _ h5 => rw [h5] at hr; cases hr
    | reg h1 => rw [h1] at hr; cases hr
    | fin h0 _ h2 h3 h4 =>
      rw [h2]
      rcases ev i t' ht with ⟨t, h5, h6⟩ | ⟨_, _, _, h7⟩
      · cases h6 with
        | same => exact hi.past i _ h5 hp hc
        | shut => cases hc
        | renew _ h7 => exact Nat.le_refl _
        | reg h7 => exact Nat.le_refl _
        | quit => cases hp
      · rcases h7 with ⟨h7, _⟩ | ⟨h7, _⟩ <;> rw [h7] at hp <;> cases hp
    | tick h1 h2 h3 h4 h5 =>
      rw [h1] at hr
      rw [h2]
      rw [h5] at ht
      exact hi.late hr i t' ht hp hc
  · intro i t' ht hp hc
    rcases ev i t' ht with ⟨t, h5, h6⟩ | ⟨_, _, _, h7⟩
    · cases h6 with
      | same => exact Nat.le_trans (hi.past i _ h5 hp hc) hnow
      | shut => cases hc
      | renew _ h7 => exact hnow
      | reg h7 => exact hnow
      | quit => cases hp
    · rcases h7 with ⟨h7, _⟩ | ⟨h7, _⟩ <;> rw [h7] at hp <;> cases hp

theorem inv {D : Nat} {s : St} (h : Reachable D s) : Inv s := reach_ind inv_init (fun _ _ _ hi h => inv_step hi h) s h

/-- A number loses its connection only when a connection with this number ends or is entered. -/
theorem tblFwd {D : Nat} {s s' : St} {e : Ev} (h : step D s e = some s') {n i : Nat} (hn : s.tbl n = some i) :
    s'.tbl n = some i ∨ ∃ (j : Nat) (u : T), s.ts[j]? = some u ∧ u.id = n ∧
      ((∃ u', s'.ts[j]? = some u' ∧ u'.pc = .gone) ∨ s.r = .dialed j) := by
  have q2 : ∀ (j : Nat) (u : T), s.ts[j]? = some u → n = u.id → ∃ u', (quit s j u).ts[j]? = some u' ∧ u'.pc = .gone := by
    intro j u hu _
    exact ⟨{ u with pc := .gone, conn := false }, List.getElem?_set_self (lt_of_get hu), rfl⟩
  have q3 : ∀ (j : Nat) (u : T), n ≠ u.id → (quit s j u).tbl n = some i := by
    intro j u hx
    simp only [quit]
    rw [if_neg hx]
    exact hn
  cases e with
  | register =>
    simp only [step] at h
    split at h
    · rename_i j hr
      split at h
      · rename_i u hu
        simp at h; subst h
        by_cases hx : n = u.id
        · exact .inr ⟨j, u, hu, hx.symm, .inr hr⟩
        · left; dsimp only; rw [if_neg hx]; exact hn
      · simp at h
    · simp at h
  | close =>
    simp only [step] at h
    split at h <;> simp at h; subst h
    left; rw [(doClose_r s).2.2.1]; exact hn
  | readEnd =>
    simp only [step] at h
    split at h <;> simp at h; subst h
    left; dsimp only; rw [(doClose_r s).2.2.1]; exact hn
  | says j ok =>
    simp only [step] at h
    split at h
    · rename_i u hu
      split at h
      · cases ok with
        | true =>
          simp only [if_true] at h
          split at h <;> simp at h
          subst h; exact .inl hn
        | false =>
          simp at h; subst h
          by_cases hx : n = u.id
          · right
            refine ⟨j, u, hu, hx.symm, .inl ?_⟩
            have hl : j < (doClose (quit s j u)).ts.length := by
              rw [doClose_length]; simp only [quit, List.length_set]; exact lt_of_get hu
            refine ⟨(doClose (quit s j u)).ts[j], List.getElem?_eq_getElem hl, ?_⟩
            obtain ⟨t, h1, h2⟩ := doClose_get (List.getElem?_eq_getElem hl)
            have h3 : t.pc = .gone := by
              have : (quit s j u).ts[j]? = some { u with pc := .gone, conn := false } := List.getElem?_set_self (lt_of_get hu)
              rw [this] at h1; cases h1; rfl
            rcases h2 with ⟨h2, _⟩ | ⟨_, h2⟩ <;> rw [h2] <;> exact h3
          · left
            rw [(doClose_r _).2.2.1]
            exact q3 j u hx
      · simp at h
    · simp at h
  | dial id => simp only [step] at h; split at h <;> simp at h; subst h; exact .inl hn
  | dialHost id => simp only [step] at h; split at h <;> simp at h; subst h; exact .inl hn
  | data id =>
    simp only [step] at h
    split at h
    · split at h
      · split at h <;> simp at h <;> subst h <;> exact .inl hn
      · simp at h; subst h; exact .inl hn
    · simp at h
  | remoteClose id =>
    simp only [step] at h
    split at h
    · split at h <;> simp at h <;> subst h <;> exact .inl hn
    · simp at h
  | serviceCloses j =>
    simp only [step] at h
    split at h
    · rename_i u hu
      split at h <;> simp at h
      subst h
      by_cases hx : n = u.id
      · exact .inr ⟨j, u, hu, hx.symm, .inl (q2 j u hu hx)⟩
      · exact .inl (q3 j u hx)
    · simp at h
  | expire j =>
    simp only [step] at h
    split at h
    · rename_i u hu
      split at h <;> simp at h
      subst h
      by_cases hx : n = u.id
      · exact .inr ⟨j, u, hu, hx.symm, .inl (q2 j u hu hx)⟩
      · exact .inl (q3 j u hx)
    · simp at h
  | fail j =>
    simp only [step] at h
    split at h
    · rename_i u hu
      split at h <;> simp at h
      subst h
      by_cases hx : n = u.id
      · exact .inr ⟨j, u, hu, hx.symm, .inl (q2 j u hu hx)⟩
      · exact .inl (q3 j u hx)
    · simp at h
  | tick => simp only [step] at h; split at h <;> simp at h; subst h; exact .inl hn

/-- When the tunnel becomes closed, what is in `c.tasks` is closed. -/
theorem closing {D : Nat} {s s' : St} {e : Ev} (h : step D s e = some s') (h0 : s.closed = false) (h1 : s'.closed = true)
    {i : Nat} {t : T} (ht : s'.ts[i]? = some t) (hl : s'.tbl t.id = some i) : t.conn = false := by
  have q : ∀ (x : St), x.closed = false → ∀ (i : Nat) (t : T), (doClose x).ts[i]? = some t → x.tbl t.id = some i → t.conn = false := by
    intro x hx i t ht hl
    obtain ⟨u, h2, ⟨rfl, h3 | h3⟩ | ⟨_, rfl⟩⟩ := doClose_get ht
    · rw [hx] at h3; cases h3
    · simp only [listed, decide_eq_false_iff_not] at h3; exact absurd hl h3
    · rfl
  have tr : ∀ {b : Bool}, b = false → b = true → t.conn = false := by intro b a c; rw [a] at c; cases c
  cases e with
  | close =>
    simp only [step] at h
    split at h <;> simp at h; subst h
    rw [(doClose_r s).2.2.1] at hl
    exact q s h0 i t ht hl
  | readEnd =>
    simp only [step] at h
    split at h <;> simp at h; subst h
    dsimp only at ht hl
    rw [(doClose_r s).2.2.1] at hl
    exact q s h0 i t ht hl
  | says j ok =>
    simp only [step] at h
    split at h
    · rename_i u hu
      split at h
      · cases ok with
        | true =>
          simp only [if_true] at h
          split at h <;> simp at h
          subst h; exact tr h0 h1
        | false =>
          simp at h; subst h
          rw [(doClose_r _).2.2.1] at hl
          exact q (quit s j u) h0 i t ht hl
      · simp at h
    · simp at h
  | register =>
    simp only [step] at h
    split at h
    · split at h
      · simp at h; subst h; exact tr h0 h1
      · simp at h
    · simp at h
  | dial id => simp only [step] at h; split at h <;> simp at h; subst h; exact tr h0 h1
  | dialHost id => simp only [step] at h; split at h <;> simp at h; subst h; exact tr h0 h1
  | data id =>
    simp only [step] at h
    split at h
    · split at h
      · split at h <;> simp at h <;> subst h <;> exact tr h0 h1
      · simp at h; subst h; exact tr h0 h1
    · simp at h
  | remoteClose id =>
    simp only [step] at h
    split at h
    · split at h <;> simp at h <;> subst h <;> exact tr h0 h1
    · simp at h
  | serviceCloses j =>
    simp only [step] at h
    split at h
    · split at h <;> simp at h
      subst h; exact tr h0 h1
    · simp at h
  | expire j =>
    simp only [step] at h
    split at h
    · split at h <;> simp at h
      subst h; exact tr h0 h1
    · simp at h
  | fail j =>
    simp only [step] at h
    split at h
    · split at h <;> simp at h
      subst h; exact tr h0 h1
    · simp at h
  | tick => simp only [step] at h; split at h <;> simp at h; subst h; exact tr h0 h1

theorem tc_id {s s' : St} {i : Nat} {t t' : T} (h : TC s s' i t t') : t'.id = t.id := by
  cases h <;> rfl

theorem forward {D : Nat} {s s' : St} {e : Ev} (h : step D s e = some s') {i : Nat} {t : T} (ht : s.ts[i]? = some t) :
    ∃ t', s'.ts[i]? = some t' ∧ TC s s' i t t' := by
  have hl := lt_of_get ht
  have hl' : i < s'.ts.length := Nat.lt_of_lt_of_le hl (grow h).1
  refine ⟨s'.ts[i], List.getElem?_eq_getElem hl', ?_⟩
  rcases (evolve h).1 i _ (List.getElem?_eq_getElem hl') with ⟨u, h1, h2⟩ | ⟨h1, _⟩
  · rw [ht] at h1; cases h1; exact h2
  · omega

theorem own_back {D : Nat} {s s' : St} {e : Ev} (h : step D s e = some s') (ho : OwnNumbers s') : OwnNumbers s := by
  intro i j a b ha hb hab
  obtain ⟨a', ha', h1⟩ := forward h ha
  obtain ⟨b', hb', h2⟩ := forward h hb
  exact ho i j a' b' ha' hb' (by rw [tc_id h1, tc_id h2]; exact hab)

/-- What holds when every visitor has its own number. -/
structure Inv2 (s : St) : Prop where
  base : Inv s
  reading : ∀ (i : Nat) (t : T), s.ts[i]? = some t → t.pc = .reading → s.tbl t.id = some i
  swept : s.closed = true → ∀ (i : Nat) (t : T), s.ts[i]? = some t → t.early = true → t.conn = false

theorem inv2_step {D : Nat} {s s' : St} {e : Ev} (hi : Inv2 s) (ho : OwnNumbers s') (h : step D s e = some s') : Inv2 s' := by
  have ho0 := own_back h ho
  have hb := inv_step hi.base h
  obtain ⟨ev, fr⟩ := evolve h
  have A : ∀ (i : Nat) (t : T), s'.ts[i]? = some t → t.pc = .reading → s'.tbl t.id = some i := by
    intro i t' ht hp
    have keep : ∀ t, s.ts[i]? = some t → t'.id = t.id → t.pc = .reading → s'.tbl t'.id = some i := by
      intro t h1 h2 h3
      have h4 := hi.reading i t h1 h3
      rw [h2]
      rcases tblFwd h h4 with h5 | ⟨j, u, h5, h6, h7⟩
      · exact h5
      · have : j = i := ho0 j i u t h5 h1 h6
        subst this
        rcases h7 with ⟨u', h7, h8⟩ | h7
        · rw [ht] at h7; cases h7; rw [hp] at h8; cases h8
        · exact absurd h4 ((hi.base.bound.1 j h7).2 _)
    rcases ev i t' ht with ⟨t, h1, h2⟩ | ⟨_, _, _, h3⟩
    · cases h2 with
      | same => exact keep _ h1 rfl hp
      | shut => exact keep _ h1 rfl hp
      | renew => exact keep _ h1 rfl hp
      | reg _ h4 => exact h4
      | quit => cases hp
    · rcases h3 with ⟨h3, _⟩ | ⟨h3, _⟩ <;> rw [h3] at hp <;> cases hp
  refine ⟨hb, A, ?_⟩
  intro hc i t' ht he
  cases h0 : s.closed with
  | true =>
    rcases ev i t' ht with ⟨t, h1, h2⟩ | ⟨_, _, h3, _⟩
    · cases h2 with
      | same => exact hi.swept h0 i _ h1 he
      | shut => rfl
      | renew => exact hi.swept h0 i t h1 he
      | reg => simp [h0] at he
      | quit => rfl
    · rw [h3] at he; cases he
  | false =>
    cases hp : t'.pc with
    | gone => exact hb.gone i t' ht hp
    | reading => exact closing h h0 hc ht (A i t' ht hp)
    | dialed => rw [hb.young i t' ht (.inl hp)] at he; cases he
    | lost => rw [hb.young i t' ht (.inr hp)] at he; cases he

theorem inv2 {D : Nat} {s : St} (h : Reachable D s) (ho : OwnNumbers s) : Inv2 s := by
  have : ∀ s, Reachable D s → OwnNumbers s → Inv2 s := by
    apply reach_ind
    · intro _
      exact ⟨inv_init, by simp [init], by simp [init]⟩
    · intro s e s' ih hs ho
      exact inv2_step (ih (own_back hs ho)) ho hs
  exact this s h ho

theorem due {D : Nat} (hD : 0 < D) {s : St} (h : Reachable D s) :
    ∀ (i : Nat) (t : T), s.ts[i]? = some t → t.pc = .reading → t.conn = true → s.now ≤ t.since + D := by
  revert s
  intro s h
  have : ∀ s, Reachable D s → Inv s ∧ ∀ (i : Nat) (t : T), s.ts[i]? = some t → t.pc = .reading → t.conn = true → s.now ≤ t.since + D := by
    apply reach_ind
    · exact ⟨inv_init, by simp [init]⟩
    · intro s e s' ⟨hi, ih⟩ hs
      refine ⟨inv_step hi hs, ?_⟩
      obtain ⟨ev, fr⟩ := evolve hs
      intro i t' ht hp hc
      have old : s'.now = s.now → s'.now ≤ t'.since + D := by
        intro hn
        rw [hn]
        rcases ev i t' ht with ⟨t, h5, h6⟩ | ⟨_, _, _, h7⟩
        · cases h6 with
          | same => exact ih i _ h5 hp hc
          | shut => cases hc
          | renew _ h7 => exact Nat.le_add_right _ _
          | reg h7 => exact Nat.le_add_right _ _
          | quit => cases hp
        · rcases h7 with ⟨h7, _⟩ | ⟨h7, _⟩ <;> rw [h7] at hp <;> cases hp
      cases fr with
      | quiet _ _ h3 => exact old h3
      | dial _ _ h3 => exact old h3
      | reg _ _ h3 => exact old h3
      | fin _ _ _ h3 => exact old h3
      | tick _ _ h3 _ h5 h6 =>
        rw [h3]
        rcases h6 with h0 | h0
        · omega
        · rw [List.all_eq_true] at h0
          rw [h5] at ht
          have := h0 t' (List.mem_of_getElem? ht)
          simp [hp] at this
          omega
  exact (this s h).2

/-- What `c.tasks` has for a number has this number. -/
theorem tbl_id {D : Nat} {s : St} (h : Reachable D s) : ∀ n i t, s.tbl n = some i → s.ts[i]? = some t → n = t.id := by
  have : ∀ s, Reachable D s → Inv s ∧ ∀ n i t, s.tbl n = some i → s.ts[i]? = some t → n = t.id := by
    apply reach_ind
    · exact ⟨inv_init, by simp [init]⟩
    · intro s e s' ⟨hi, ih⟩ hs
      refine ⟨inv_step hi hs, ?_⟩
      intro n i t' hn ht
      have back : ∀ t, s.ts[i]? = some t → t'.id = t.id := by
        intro t h1
        obtain ⟨t2, h2, h3⟩ := forward hs h1
        rw [ht] at h2; cases h2
        exact tc_id h3
      cases e with
      | register =>
        simp only [step] at hs
        split at hs
        · rename_i j hr
          split at hs
          · rename_i u hu
            simp at hs; subst hs
            dsimp only at hn
            split at hn
            · rename_i hx
              cases hn
              rw [hx]; exact (back u hu).symm
            · have hl := hi.bound.2 n i hn
              rw [back _ (List.getElem?_eq_getElem hl)]
              exact ih n i _ hn (List.getElem?_eq_getElem hl)
          · simp at hs
        · simp at hs
      | _ =>
        have h1 := tbl_same (by simp) hs hn
        have hl := hi.bound.2 n i h1
        rw [back _ (List.getElem?_eq_getElem hl)]
        exact ih n i _ h1 (List.getElem?_eq_getElem hl)
  exact (this s h).2

/-! ## C140 -/

/-- When the tunnel is closed — by the client, by a failed write or because its reader has returned — every connection to a service that was
entered before is closed, provided the server has not given one number to two visitors. The others are below. -/
theorem closed_with_tunnel_partial {D : Nat} {s : St} (h : Reachable D s) (ho : OwnNumbers s) (hc : s.closed = true)
    {i : Nat} {t : T} (ht : s.ts[i]? = some t) (he : t.early = true) : t.conn = false :=
  (inv2 h ho).swept hc i t ht he

/-- When the reader of the tunnel has returned, the tunnel is closed. -/
theorem reader_closes {D : Nat} {s : St} (h : Reachable D s) (hr : s.r = .ended) : s.closed = true := ((inv h).ended hr).1

/-- With a `LocalTimeout`, no connection the client still holds is open longer than this after the reader has returned, whatever the
numbers, the services and the visitors do. -/
theorem closed_in_time {D : Nat} (hD : 0 < D) {s : St} (h : Reachable D s) (hr : s.r = .ended) (hn : s.endedAt + D < s.now)
    {i : Nat} {t : T} (ht : s.ts[i]? = some t) (hl : t.pc ≠ .lost) : t.conn = false := by
  cases hc : t.conn with
  | false => rfl
  | true =>
    exfalso
    have hi := inv h
    cases hp : t.pc with
    | lost => exact hl hp
    | gone => rw [hi.gone i t ht hp] at hc; cases hc
    | dialed => have := (hi.dialed i t ht hp).1; rw [hr] at this; cases this
    | reading =>
      have h1 := due hD h i t ht hp hc
      have h2 := hi.late hr i t ht hp hc
      omega

/-- A service that sends something after the tunnel was closed loses its connection: what it sends cannot be forwarded. -/
theorem speaking_ends {D : Nat} {s : St} {i : Nat} {t : T} (ht : s.ts[i]? = some t) (hp : t.pc = .reading) (hc : t.conn = true)
    (hcl : s.closed = true) :
    step D s (.says i true) = none ∧
      ∃ s', step D s (.says i false) = some s' ∧ s'.ts[i]? = some { t with pc := .gone, conn := false } ∧
        ∀ j, j ≠ i → s'.ts[j]? = s.ts[j]? := by
  have h1 : step D s (.says i true) = none := by simp [step, ht, hp, hc, hcl]
  have h2 : step D s (.says i false) = some (quit s i t) := by
    simp only [step, ht, hp, hc, and_self, if_true, Bool.false_eq_true, if_false]
    unfold doClose
    simp [quit, hcl]
  refine ⟨h1, quit s i t, h2, List.getElem?_set_self (lt_of_get ht), ?_⟩
  intro j hj
  exact List.getElem?_set_ne (fun x => hj x.symm)

/-- A connection is closed for its silence exactly when there is a time limit and it has passed; one that its service closes is closed here
too. -/
theorem expires_iff {D : Nat} {s : St} {i : Nat} {t : T} (ht : s.ts[i]? = some t) (hp : t.pc = .reading) :
    ((∃ s', step D s (.expire i) = some s') ↔ 0 < D ∧ t.since + D ≤ s.now) ∧
    (t.conn = true → ∃ s', step D s (.serviceCloses i) = some s' ∧ s'.ts[i]? = some { t with pc := .gone, conn := false }) := by
  constructor
  · simp only [step, ht, hp, true_and]
    constructor
    · rintro ⟨s', h⟩
      split at h
      · assumption
      · cases h
    · intro h; exact ⟨_, if_pos h⟩
  · intro hc
    exact ⟨quit s i t, by simp [step, ht, hp, hc], List.getElem?_set_self (lt_of_get ht)⟩

/-- While the tunnel is open, the end of one connection (its service closes it, its time is over, its visitor goes) closes no other. -/
theorem others_stay {D : Nat} {s s' : St} (h : Reachable D s) (ho : OwnNumbers s) {e : Ev} {i : Nat}
    (he : e = .serviceCloses i ∨ e = .expire i ∨ e = .fail i ∨ ∃ t, e = .remoteClose t.id ∧ s.ts[i]? = some t)
    (hs : step D s e = some s') {j : Nat} (hj : j ≠ i) {u : T} (hu : s.ts[j]? = some u) (hr : u.pc = .reading) :
    s'.ts[j]? = some u := by
  have q : ∀ t, (quit s i t).ts[j]? = some u := by
    intro t
    simp only [quit]
    rw [List.getElem?_set_ne (fun x => hj x.symm)]; exact hu
  rcases he with rfl | rfl | rfl | ⟨t, rfl, ht⟩
  · simp only [step] at hs
    split at hs
    · split at hs <;> simp at hs; subst hs; exact q _
    · simp at hs
  · simp only [step] at hs
    split at hs
    · split at hs <;> simp at hs; subst hs; exact q _
    · simp at hs
  · simp only [step] at hs
    split at hs
    · split at hs <;> simp at hs; subst hs; exact q _
    · simp at hs
  · simp only [step] at hs
    split at hs
    · split at hs
      · rename_i k hk
        simp at hs; subst hs
        dsimp only
        unfold shut
        by_cases hkj : k = j
        · subst hkj
          exfalso
          have h1 := (inv2 h ho).reading k u hu hr
          have h2 : ∀ n, s.tbl n = some k → n = u.id := fun n hn => tbl_id h n k u hn hu
          have h3 := h2 t.id hk
          exact hj (ho k i u t hu ht h3.symm)
        · split
          · rw [List.getElem?_set_ne hkj]; exact hu
          · exact hu
      · simp at hs; subst hs; exact hu
    · simp at hs

/-- Nothing but the end of the process (or the garbage collector) closes a connection `dial` made before it found the address too long for a
`Host` line: it stays open in every later state, also when the tunnel is closed and its reader has returned. -/
theorem lost_never_closed {D : Nat} {s s' : St} (h : Reachable D s) (es : List Ev) (hs : run D s es = some s')
    {i : Nat} {t : T} (ht : s.ts[i]? = some t) (hp : t.pc = .lost) :
    ∃ t', s'.ts[i]? = some t' ∧ t'.pc = .lost ∧ t'.conn = true := by
  have key : ∀ (es : List Ev) (s s' : St), (Inv s ∧ ∃ t, s.ts[i]? = some t ∧ t.pc = .lost) → run D s es = some s' →
      (Inv s' ∧ ∃ t, s'.ts[i]? = some t ∧ t.pc = .lost) := by
    apply run_ind
    intro s e s' ⟨hi, t, h1, h2⟩ hst
    refine ⟨inv_step hi hst, ?_⟩
    obtain ⟨t', h3, h4⟩ := forward hst h1
    refine ⟨t', h3, ?_⟩
    cases h4 with
    | same => exact h2
    | shut => exact h2
    | renew => exact h2
    | reg hr => exact absurd hr (hi.lost i t h1 h2).1
    | quit hq => rw [h2] at hq; cases hq
  obtain ⟨hi, t', h1, h2⟩ := key es s s' ⟨inv h, t, ht, hp⟩ hs
  exact ⟨t', h1, h2, (hi.lost i t' h1 h2).2.2⟩

theorem ticks (n : Nat) (s : St) : run 0 s (List.replicate n .tick) = some { s with now := s.now + n } := by
  induction n generalizing s with
  | zero => rfl
  | succ n ih =>
    rw [List.replicate_succ]
    simp only [run, step, true_or, if_true]
    rw [ih]
    simp only [Option.some.injEq]
    congr 1
    omega

/-- The service was being connected to while the tunnel was closed: the connection is entered afterwards, and nobody closes it. Without a
`LocalTimeout` and with a silent service it is open for ever, with the tunnel closed and its reader gone. -/
theorem late_stays_open (n : Nat) :
    ∃ s, run 0 init ([.dial 7, .close, .register, .readEnd] ++ List.replicate n .tick) = some s ∧ s.closed = true ∧ s.r = .ended ∧
      s.now = n ∧ s.endedAt = 0 ∧ OwnNumbers s ∧ ∃ t, s.ts[0]? = some t ∧ t.pc = .reading ∧ t.conn = true ∧ t.early = false := by
  rw [run_append]
  have h1 : run 0 init [.dial 7, .close, .register, .readEnd] =
      some ⟨true, .ended, [⟨7, .reading, true, 0, false⟩], fun x => if x = 7 then some 0 else none, 0, 0⟩ := rfl
  rw [h1]
  refine ⟨_, ticks n _, rfl, rfl, by simp, rfl, ?_, _, rfl, rfl, rfl, rfl⟩
  intro i j a b ha hb _
  have hi := lt_of_get ha
  have hj := lt_of_get hb
  simp at hi hj
  omega

/-- The same happens to a visitor whose number a second visitor was given: the end of the first takes the second out of `c.tasks`, and
`Close` does not find it. -/
theorem shared_number_stays_open (n : Nat) :
    ∃ s, run 0 init ([.dial 7, .register, .dial 7, .register, .fail 0, .readEnd] ++ List.replicate n .tick) = some s ∧ s.closed = true ∧
      s.r = .ended ∧ s.now = n ∧ ∃ t, s.ts[1]? = some t ∧ t.pc = .reading ∧ t.conn = true ∧ t.early = true := by
  rw [run_append]
  have h1 : run 0 init [.dial 7, .register, .dial 7, .register, .fail 0, .readEnd] =
      some ⟨true, .ended, [⟨7, .gone, false, 0, true⟩, ⟨7, .reading, true, 0, true⟩],
        fun x => if x = 7 then none else if x = 7 then some 1 else if x = 7 then some 0 else none, 0, 0⟩ := rfl
  rw [h1]
  exact ⟨_, ticks n _, rfl, rfl, by simp, _, rfl, rfl, rfl, rfl⟩

/-- A number that is used again: the connection that had it is closed. -/
theorem number_taken_over {D : Nat} {s s' : St} (h : Reachable D s) {i j : Nat} {t u : T} (hr : s.r = .dialed i) (ht : s.ts[i]? = some t)
    (hj : s.tbl t.id = some j) (hu : s.ts[j]? = some u) (hs : step D s .register = some s') :
    s'.ts[j]? = some { u with conn := false } ∧ s'.tbl t.id = some i := by
  have hij : i ≠ j := fun x => (((inv h).bound.1 i hr).2 t.id) (x ▸ hj)
  simp only [step, hr, ht, hj] at hs
  simp at hs
  subst hs
  refine ⟨?_, by simp⟩
  dsimp only
  rw [List.getElem?_set_ne hij]
  unfold shut
  simp only [hu]
  exact List.getElem?_set_self (lt_of_get hu)

/-- Every visitor of a service with too long an address leaves an open connection behind (three, in fact: `dial` is tried three times). -/
theorem lost_pile_up (D n : Nat) :
    ∃ s, run D init (List.replicate n (.dialHost 7)) = some s ∧ s.ts.length = n ∧
      ∀ (i : Nat) (t : T), s.ts[i]? = some t → t.pc = .lost ∧ t.conn = true := by
  have key : ∀ (n : Nat) (s : St), s.r = .idle → (∀ (i : Nat) (t : T), s.ts[i]? = some t → t.pc = .lost ∧ t.conn = true) →
      ∃ s', run D s (List.replicate n (.dialHost 7)) = some s' ∧ s'.ts.length = s.ts.length + n ∧
        ∀ (i : Nat) (t : T), s'.ts[i]? = some t → t.pc = .lost ∧ t.conn = true := by
    intro n
    induction n with
    | zero => intro s _ h; exact ⟨s, rfl, rfl, h⟩
    | succ n ih =>
      intro s hr h
      rw [List.replicate_succ]
      have h1 : step D s (.dialHost 7) = some { s with ts := s.ts ++ [⟨7, .lost, true, s.now, false⟩] } := by simp [step, hr]
      simp only [run, h1]
      obtain ⟨s', h2, h3, h4⟩ := ih { s with ts := s.ts ++ [⟨7, .lost, true, s.now, false⟩] } hr (by
        intro i t ht
        rcases append_get ht with h5 | ⟨_, rfl⟩
        · exact h i t h5
        · exact ⟨rfl, rfl⟩)
      refine ⟨s', h2, ?_, h4⟩
      rw [h3]
      simp
      omega
  obtain ⟨s, h1, h2, h3⟩ := key n init rfl (by simp [init])
  exact ⟨s, h1, by simpa [init] using h2, h3⟩

/-- A case for the first theorems: two visitors, one connection entered before the tunnel was closed and one after; both are closed when the
time is over. -/
theorem mix : ∃ s, run 2 init [.dial 1, .register, .dial 2, .says 0 false, .register, .says 1 false, .readEnd, .tick, .tick, .tick] = some s ∧
    s.closed = true ∧ s.r = .ended ∧ s.endedAt + 2 < s.now ∧ s.ts = [⟨1, .gone, false, 0, true⟩, ⟨2, .gone, false, 0, false⟩] :=
  ⟨_, rfl, rfl, rfl, by decide, rfl⟩

end Verif.Client.LocalConns
