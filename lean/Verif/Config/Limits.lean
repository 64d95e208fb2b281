import Verif.Config.Users
import Verif.Handshake.Props
set_option linter.unusedSimpArgs false
set_option linter.unusedVariables false
/-!
# C119, C120: which limits hold for a client
(libcs/server/server.go:340-363 `Start`, 797-880 `authUserWithConfig`, `newTempUserForAPIServer`, `authUserWithAPI`,
`authUserOrCreateUser`, 935-939 in `parseTCPs`, 971-1047 `parseHost`; libcs/server/conn.go:633-781 `parseOptions`)

At the start every user's record is completed by the global settings; the record of the client that logs in then limits what
its tunnels may declare. Nil pointers are `none`, and reading one is a crash.

Simplified: the pools of TCP ports are in Ports/Range, who is let in is in Registry/Auth and Server/Platform; regular expressions
are any partial function from texts to predicates. The iteration over the Go map of patterns gives its members in any order, each
time in another (`k1`, `k2`).
-/
namespace Verif.Config.Lim
open Verif Verif.Config

/-- libcs/server/config.go:27-97: the settings for all clients: options, and the section `host` of the configuration file. -/
structure Glob where
  tcpNumber : Nat := 0
  speed : Nat := 0
  connections : Nat := 10
  /-- `-hostNumber`, `-hostRegex`, `-hostWithID`: command line only -/
  hostNumber : Nat := 0
  hostRegex : List Str := []
  hostWithID : Bool := false
  /-- `host:` in the file -/
  host : Host := {}
  maxOptions : Nat := 600

abbrev Pat := Str → Bool
abbrev Compile := Str → Option Pat

/-- libcs/server/config.go:154-165, 238-244 `user` and its `host` at run time -/
structure Rec where
  secret : Str := []
  tcpNumber : Option Nat := none
  speed : Nat := 0
  connections : Nat := 0
  number : Option Nat := none
  regexStr : Option (List Str) := none
  regex : Option (List Pat) := none
  withID : Option Bool := none

/-- libcs/server/server.go:1025-1033, 992-999: compile each, stop at the first that fails -/
def compileAll (c : Compile) : List Str → Option (List Pat)
  | [] => some []
  | p :: ps =>
    match c p with
    | none => none
    | some f =>
      match compileAll c ps with
      | none => none
      | some fs => some (f :: fs)

/-- The members of `hostRegexMap` (libcs/server/server.go:973-982). -/
def patterns (g : Glob) : List Str :=
  let file := match g.host.regexStr with | none => g.hostRegex | some l => l
  file ++ g.hostRegex

/-- libcs/server/server.go:971-1002: the global section. Of the result `secret`, `speed` … are not used. -/
def parseGlobal (c : Compile) (g : Glob) (k1 k2 : List Str) : Option Rec :=
  match compileAll c k2 with
  | none => none
  | some fs => some {
      number := match g.host.number with | none => some g.hostNumber | some n => some n
      regexStr := some k1
      regex := some fs
      withID := match g.host.withID with | none => some g.hostWithID | some b => some b }

/-- libcs/server/server.go:936-939 -/
def tcpUser (g : Glob) (u : User) : Rec :=
  { secret := u.secret
    tcpNumber := match u.tcpNumber with | none => some g.tcpNumber | some n => some n
    speed := u.speed, connections := u.connections
    number := u.host.number, regexStr := u.host.regexStr, withID := u.host.withID }

/-- libcs/server/server.go:1005-1040: one user -/
def parseUser (c : Compile) (g : Glob) (gh u : Rec) : Option Rec :=
  let u := if u.speed ≤ 0 then { u with speed := g.speed } else u
  let u := if u.connections ≤ 0 then { u with connections := g.connections } else u
  let u := match u.number with | none => { u with number := gh.number } | some _ => u
  let u := match u.regexStr with | none => { u with regexStr := gh.regexStr } | some _ => u
  match u.regexStr with
  | none => none
  | some ps =>
    match compileAll c ps with
    | none => none
    | some fs =>
      let u := { u with regex := some fs }
      some (match u.withID with | none => { u with withID := gh.withID } | some _ => u)

/-- libcs/server/server.go:1005-1042: all users, in any order; the first error ends it -/
def parseUsers (c : Compile) (g : Glob) (gh : Rec) : List (Str × User) → Option (List (Str × Rec))
  | [] => some []
  | (id, u) :: r =>
    match parseUser c g gh (tcpUser g u) with
    | none => none
    | some x =>
      match parseUsers c g gh r with
      | none => none
      | some xs => some ((id, x) :: xs)

/-- A server after `parseHost`. -/
structure Started where
  glob : Glob
  gh : Rec
  users : AMap Str Rec

/-- libcs/server/server.go:340-363 -/
def start (c : Compile) (g : Glob) (k1 k2 : List Str) (cfg file : List (Str × Option User)) (ids secrets : List Str) :
    Option Started :=
  match startUsers cfg file ids secrets with
  | .merged t =>
    match parseGlobal c g k1 k2 with
    | none => none
    | some gh =>
      match parseUsers c g gh t with
      | none => none
      | some us => some ⟨g, gh, us⟩
  | _ => none

/-- How a client was let in. -/
inductive Via where
  | configured
  /-- `-allowAnyClient`, or no user configured -/
  | created
  | platform
  /-- the server's own test -/
  | internal
deriving DecidableEq, Repr

/-- libcs/server/server.go:814-820, 841-847, 860-868: a record made from the global settings -/
def fresh (s : Started) (secret : Str) : Rec :=
  { s.gh with secret := secret, tcpNumber := some s.glob.tcpNumber, speed := s.glob.speed,
              connections := s.glob.connections }

/-- The record with which a client's tunnel is handled. -/
def record (s : Started) (v : Via) (id secret : Str) : Option Rec :=
  match v with
  | .configured => s.users.get id
  | .created =>
    match s.users.get id with
    | some r => some r
    | none => some (fresh s secret)
  | .platform => some (fresh s [])
  | .internal => some (fresh s [])

/-- libcs/server/conn.go:638-640, 746, 761: what `parseOptions` reads; `none` is a crash -/
def limitsOf (s : Started) (r : Rec) : Option Handshake.Limits :=
  match r.number, r.tcpNumber, r.regex, r.withID with
  | some n, some t, some fs, some w =>
    some { maxOptions := s.glob.maxOptions, hostNumber := n, tcpNumber := t, regex := fs, withID := w }
  | _, _, _, _ => none

/-! ## Specification -/

/-- What the administrator has written for the client: nothing, if it is not in the table (or not looked up there). -/
structure Wanted where
  number : Nat
  tcpNumber : Nat
  speed : Nat
  connections : Nat
  patterns : List Str
  withID : Bool

/-- A client's own settings count before those for all; of those for all, the file's `host` section before the command
line, except that patterns of both count. A speed or a number of connections of 0 is no setting. -/
def wanted (g : Glob) (own : Option User) : Wanted :=
  { number := (own.bind (·.host.number)).getD (g.host.number.getD g.hostNumber)
    tcpNumber := (own.bind (·.tcpNumber)).getD g.tcpNumber
    speed := match own with | some u => if u.speed = 0 then g.speed else u.speed | none => g.speed
    connections := match own with | some u => if u.connections = 0 then g.connections else u.connections | none => g.connections
    patterns := (own.bind (·.host.regexStr)).getD (g.host.regexStr.getD [] ++ g.hostRegex)
    withID := (own.bind (·.host.withID)).getD (g.host.withID.getD g.hostWithID) }

/-- A text conforms to the patterns: there are none, or it matches one. -/
def Conforms (c : Compile) (ps : List Str) (x : Str) : Prop :=
  ps = [] ∨ ∃ p ∈ ps, ∃ f, c p = some f ∧ f x = true

/-- the client's own settings, by way of entry -/
def ownOf (v : Via) (t : Option User) : Option User :=
  match v with
  | .configured => t
  | .created => t
  | .platform => none
  | .internal => none

/-- the orders of iteration are orders of the map -/
def Orders (g : Glob) (k1 k2 : List Str) : Prop :=
  (∀ x, x ∈ k1 ↔ x ∈ patterns g) ∧ (∀ x, x ∈ k2 ↔ x ∈ patterns g)

/-! ## Proofs -/

theorem mem_patterns (g : Glob) (x : Str) : x ∈ patterns g ↔ x ∈ g.host.regexStr.getD [] ++ g.hostRegex := by
  unfold patterns
  cases g.host.regexStr <;> simp

theorem patterns_nil (g : Glob) : patterns g = [] ↔ g.host.regexStr.getD [] ++ g.hostRegex = [] := by
  unfold patterns
  cases g.host.regexStr <;> simp

theorem compileAll_some {c : Compile} {ps : List Str} {fs : List Pat} (h : compileAll c ps = some fs) :
    (∀ p ∈ ps, ∃ f, c p = some f) ∧ (fs = [] ↔ ps = []) ∧
    ∀ x, (∃ f ∈ fs, f x = true) ↔ ∃ p ∈ ps, ∃ f, c p = some f ∧ f x = true := by
  induction ps generalizing fs with
  | nil =>
    simp only [compileAll, Option.some.injEq] at h
    subst h
    simp
  | cons p ps ih =>
    simp only [compileAll] at h
    cases hp : c p with
    | none => rw [hp] at h; cases h
    | some f =>
      rw [hp] at h
      cases hr : compileAll c ps with
      | none => simp only [hr] at h; cases h
      | some gs =>
        simp only [hr, Option.some.injEq] at h
        subst h
        obtain ⟨a, _, b⟩ := ih hr
        refine ⟨?_, by simp, ?_⟩
        · intro q hq
          rcases List.mem_cons.mp hq with rfl | hq
          · exact ⟨f, hp⟩
          · exact a q hq
        · intro x
          constructor
          · rintro ⟨k, hk, hx⟩
            rcases List.mem_cons.mp hk with rfl | hk
            · exact ⟨p, by simp, k, hp, hx⟩
            · obtain ⟨q, hq, y⟩ := (b x).1 ⟨k, hk, hx⟩
              exact ⟨q, by simp [hq], y⟩
          · rintro ⟨q, hq, k, hk, hx⟩
            rcases List.mem_cons.mp hq with rfl | hq
            · rw [hp] at hk; cases hk
              exact ⟨f, by simp, hx⟩
            · obtain ⟨y, hy, hz⟩ := (b x).2 ⟨q, hq, k, hk, hx⟩
              exact ⟨y, by simp [hy], hz⟩

theorem compileAll_iff {c : Compile} {ps : List Str} :
    (∃ fs, compileAll c ps = some fs) ↔ ∀ p ∈ ps, ∃ f, c p = some f := by
  constructor
  · rintro ⟨fs, h⟩; exact (compileAll_some h).1
  · intro h
    induction ps with
    | nil => exact ⟨[], rfl⟩
    | cons p ps ih =>
      obtain ⟨f, hf⟩ := h p (by simp)
      obtain ⟨fs, hfs⟩ := ih (fun q hq => h q (by simp [hq]))
      exact ⟨f :: fs, by simp only [compileAll, hf, hfs]⟩

theorem nil_of_mem {α : Type} {a b : List α} (h : ∀ x, x ∈ a ↔ x ∈ b) : a = [] ↔ b = [] := by
  constructor
  · rintro rfl
    exact List.eq_nil_iff_forall_not_mem.mpr (fun x hx => by simpa using (h x).2 hx)
  · rintro rfl
    exact List.eq_nil_iff_forall_not_mem.mpr (fun x hx => by simpa using (h x).1 hx)

/-- What a completed record says. -/
structure Right (c : Compile) (w : Wanted) (r : Rec) : Prop where
  number : r.number = some w.number
  tcp : r.tcpNumber = some w.tcpNumber
  speed : r.speed = w.speed
  conns : r.connections = w.connections
  withID : r.withID = some w.withID
  regex : ∃ fs, r.regex = some fs ∧ (fs = [] ↔ w.patterns = []) ∧
    ∀ x, (∃ f ∈ fs, f x = true) ↔ ∃ p ∈ w.patterns, ∃ f, c p = some f ∧ f x = true

theorem parseGlobal_spec {c : Compile} {g : Glob} {k1 k2 : List Str} {gh : Rec} (ho : Orders g k1 k2)
    (h : parseGlobal c g k1 k2 = some gh) :
    gh.number = some (g.host.number.getD g.hostNumber) ∧ gh.withID = some (g.host.withID.getD g.hostWithID) ∧
    gh.regexStr = some k1 ∧
    ∃ fs, gh.regex = some fs ∧ (fs = [] ↔ g.host.regexStr.getD [] ++ g.hostRegex = []) ∧
      ∀ x, (∃ f ∈ fs, f x = true) ↔ ∃ p ∈ g.host.regexStr.getD [] ++ g.hostRegex, ∃ f, c p = some f ∧ f x = true := by
  unfold parseGlobal at h
  cases hc : compileAll c k2 with
  | none => rw [hc] at h; cases h
  | some fs =>
    rw [hc] at h
    simp only [Option.some.injEq] at h
    subst h
    obtain ⟨_, e1, e2⟩ := compileAll_some hc
    refine ⟨?_, ?_, rfl, fs, rfl, ?_, ?_⟩
    · cases g.host.number <;> rfl
    · cases g.host.withID <;> rfl
    · rw [e1, nil_of_mem ho.2, patterns_nil]
    · intro x
      rw [e2 x]
      constructor
      · rintro ⟨p, hp, y⟩
        exact ⟨p, (mem_patterns g p).1 ((ho.2 p).1 hp), y⟩
      · rintro ⟨p, hp, y⟩
        exact ⟨p, (ho.2 p).2 ((mem_patterns g p).2 hp), y⟩

theorem parseUser_spec {c : Compile} {g : Glob} {k1 k2 : List Str} {gh r : Rec} {u : User} (ho : Orders g k1 k2)
    (hg : parseGlobal c g k1 k2 = some gh) (h : parseUser c g gh (tcpUser g u) = some r) :
    Right c (wanted g (some u)) r ∧ r.secret = u.secret ∧ ∀ p ∈ u.host.regexStr.getD [], ∃ f, c p = some f := by
  obtain ⟨g1, g2, g3, gfs, g4, g5, g6⟩ := parseGlobal_spec ho hg
  obtain ⟨secret, tcps, tcpNumber, speed, connections, ⟨number, regexStr, withID⟩⟩ := u
  have key : ∃ fs, compileAll c (regexStr.getD k1) = some fs ∧
      r = { secret := secret, tcpNumber := some (tcpNumber.getD g.tcpNumber),
            speed := if speed = 0 then g.speed else speed,
            connections := if connections = 0 then g.connections else connections,
            number := some (number.getD (g.host.number.getD g.hostNumber)),
            regexStr := some (regexStr.getD k1), regex := some fs,
            withID := some (withID.getD (g.host.withID.getD g.hostWithID)) } := by
    unfold parseUser tcpUser at h
    cases regexStr with
    | none =>
      by_cases hs : speed = 0 <;> by_cases hc : connections = 0 <;> cases number <;>
        simp only [hs, hc, Nat.le_zero, if_true, if_false, g1, g3] at h <;>
        cases hcomp : compileAll c k1 <;> simp only [hcomp] at h <;> (try cases h) <;>
        (refine ⟨_, hcomp, ?_⟩) <;> cases tcpNumber <;> cases withID <;> simp [hs, hc, g2]
    | some ps =>
      by_cases hs : speed = 0 <;> by_cases hc : connections = 0 <;> cases number <;>
        simp only [hs, hc, Nat.le_zero, if_true, if_false, g1, g3] at h <;>
        cases hcomp : compileAll c ps <;> simp only [hcomp] at h <;> (try cases h) <;>
        (refine ⟨_, hcomp, ?_⟩) <;> cases tcpNumber <;> cases withID <;> simp [hs, hc, g2]
  obtain ⟨fs, hfs, rfl⟩ := key
  obtain ⟨e0, e1, e2⟩ := compileAll_some hfs
  refine ⟨⟨rfl, rfl, rfl, rfl, rfl, fs, rfl, ?_, ?_⟩, rfl, ?_⟩
  · cases regexStr with
    | none =>
      rw [e1]
      show k1 = [] ↔ g.host.regexStr.getD [] ++ g.hostRegex = []
      rw [nil_of_mem ho.1, patterns_nil]
    | some ps => exact e1
  · intro x
    rw [e2 x]
    cases regexStr with
    | none =>
      constructor
      · rintro ⟨p, hp, y⟩
        exact ⟨p, (mem_patterns g p).1 ((ho.1 p).1 hp), y⟩
      · rintro ⟨p, hp, y⟩
        exact ⟨p, (ho.1 p).2 ((mem_patterns g p).2 hp), y⟩
    | some ps => rfl
  · intro p hp
    cases regexStr with
    | none => simp at hp
    | some ps => exact e0 p hp

theorem parseUsers_get {c : Compile} {g : Glob} {gh : Rec} {t : List (Str × User)} {us : AMap Str Rec}
    (h : parseUsers c g gh t = some us) (id : Str) :
    match AMap.get t id with
    | none => us.get id = none
    | some u => ∃ r, us.get id = some r ∧ parseUser c g gh (tcpUser g u) = some r := by
  induction t generalizing us with
  | nil =>
    simp only [parseUsers, Option.some.injEq] at h
    subst h
    simp [AMap.get]
  | cons e t ih =>
    obtain ⟨k, u⟩ := e
    simp only [parseUsers] at h
    cases hu : parseUser c g gh (tcpUser g u) with
    | none => rw [hu] at h; cases h
    | some x =>
      simp only [hu] at h
      cases ht : parseUsers c g gh t with
      | none => simp only [ht] at h; cases h
      | some xs =>
        simp only [ht, Option.some.injEq] at h
        subst h
        have := ih ht
        by_cases hk : k = id
        · subst hk
          simp only [AMap.get, if_true]
          exact ⟨x, rfl, hu⟩
        · simp only [AMap.get, hk, if_false]
          exact this

theorem start_some {c : Compile} {g : Glob} {k1 k2 : List Str} {cfg file : List (Str × Option User)}
    {ids secrets : List Str} {s : Started} (h : start c g k1 k2 cfg file ids secrets = some s) :
    ∃ t gh us, startUsers cfg file ids secrets = .merged t ∧ parseGlobal c g k1 k2 = some gh ∧
      parseUsers c g gh t = some us ∧ s = ⟨g, gh, us⟩ := by
  unfold start at h
  split at h
  · rename_i t ht
    cases hg : parseGlobal c g k1 k2 with
    | none => rw [hg] at h; cases h
    | some gh =>
      simp only [hg] at h
      cases hu : parseUsers c g gh t with
      | none => rw [hu] at h; cases h
      | some us =>
        simp only [hu, Option.some.injEq] at h
        exact ⟨t, gh, us, ht, rfl, hu, h.symm⟩
  · cases h

theorem fresh_right {c : Compile} {g : Glob} {k1 k2 : List Str} {gh : Rec} (ho : Orders g k1 k2)
    (hg : parseGlobal c g k1 k2 = some gh) (us : AMap Str Rec) (secret : Str) :
    Right c (wanted g none) (fresh ⟨g, gh, us⟩ secret) := by
  obtain ⟨g1, g2, g3, gfs, g4, g5, g6⟩ := parseGlobal_spec ho hg
  exact ⟨g1, rfl, rfl, rfl, g2, gfs, g4, g5, g6⟩

/-- **C119** Whichever way a client is let in, the record that limits it says what the administrator has written: its own settings
where it has some, those for all otherwise. (`own` is the entry of Users.lean, C46.) -/
theorem effective_limits {c : Compile} {g : Glob} {k1 k2 : List Str} {cfg file : List (Str × Option User)}
    {ids secrets : List Str} {s : Started} {v : Via} {id secret : Str} {r : Rec}
    (hcfg : (AMap.keys cfg).Nodup) (hfile : (AMap.keys file).Nodup) (ho : Orders g k1 k2)
    (h : start c g k1 k2 cfg file ids secrets = some s) (hr : record s v id secret = some r) :
    ∃ own, Expected cfg file ids secrets id own ∧ Right c (wanted g (ownOf v own)) r := by
  obtain ⟨t, gh, us, ht, hg, hu, rfl⟩ := start_some h
  refine ⟨AMap.get t id, (merged_users hcfg hfile ht).2.1 id, ?_⟩
  have hget := parseUsers_get hu id
  have hf := fresh_right ho hg us
  cases v with
  | configured =>
    cases hx : AMap.get t id with
    | none =>
      rw [hx] at hget
      have : AMap.get us id = some r := hr
      rw [hget] at this; cases this
    | some u =>
      rw [hx] at hget
      obtain ⟨r', h1, h2⟩ := hget
      have : AMap.get us id = some r := hr
      rw [h1] at this; cases this
      exact (parseUser_spec ho hg h2).1
  | created =>
    cases hx : AMap.get t id with
    | none =>
      rw [hx] at hget
      simp only [record, hget, Option.some.injEq] at hr
      subst hr
      exact hf secret
    | some u =>
      rw [hx] at hget
      obtain ⟨r', h1, h2⟩ := hget
      simp only [record, h1, Option.some.injEq] at hr
      subst hr
      exact (parseUser_spec ho hg h2).1
  | platform =>
    simp only [record, Option.some.injEq] at hr
    subst hr
    exact hf []
  | internal =>
    simp only [record, Option.some.injEq] at hr
    subst hr
    exact hf []

theorem limitsOf_right {c : Compile} {w : Wanted} {r : Rec} (s : Started) (h : Right c w r) :
    ∃ lim, limitsOf s r = some lim ∧ lim.maxOptions = s.glob.maxOptions ∧ lim.hostNumber = w.number ∧
      lim.tcpNumber = w.tcpNumber ∧ lim.withID = w.withID ∧ (lim.regex = [] ↔ w.patterns = []) ∧
      ∀ x, (∃ f ∈ lim.regex, f x = true) ↔ ∃ p ∈ w.patterns, ∃ f, c p = some f ∧ f x = true := by
  obtain ⟨fs, h1, h2, h3⟩ := h.regex
  exact ⟨⟨s.glob.maxOptions, w.number, w.tcpNumber, fs, w.withID⟩,
    by simp only [limitsOf, h.number, h.tcp, h1, h.withID], rfl, rfl, rfl, rfl, h2, h3⟩

/-- **C119** No login makes the server read a setting that is not there. -/
theorem no_missing_setting {c : Compile} {g : Glob} {k1 k2 : List Str} {cfg file : List (Str × Option User)}
    {ids secrets : List Str} {s : Started} {v : Via} {id secret : Str} {r : Rec}
    (hcfg : (AMap.keys cfg).Nodup) (hfile : (AMap.keys file).Nodup) (ho : Orders g k1 k2)
    (h : start c g k1 k2 cfg file ids secrets = some s) (hr : record s v id secret = some r) :
    limitsOf s r ≠ none := by
  obtain ⟨own, _, h2⟩ := effective_limits hcfg hfile ho h hr
  obtain ⟨lim, h3, _⟩ := limitsOf_right s h2
  rw [h3]; simp

/-- **C119** From the configuration to the tunnel: whatever bytes a client sends, if they are accepted then it has at most as
many hosts and TCP ports as the administrator allows it, and each of its hosts is its id or
conforms to the patterns (with the id in front, where that is asked for). 0 is no limit. -/
theorem tunnel_within_limits {c : Compile} {g : Glob} {k1 k2 : List Str} {cfg file : List (Str × Option User)}
    {ids secrets : List Str} {s : Started} {v : Via} {id secret : Str} {r : Rec}
    (hcfg : (AMap.keys cfg).Nodup) (hfile : (AMap.keys file).Nodup) (ho : Orders g k1 k2)
    (h : start c g k1 k2 cfg file ids secrets = some s) (hr : record s v id secret = some r)
    (hmax : g.maxOptions < 65535) {lim : Handshake.Limits} (hl : limitsOf s r = some lim)
    {inp rest : Bytes} {reg : Handshake.Reg} (hp : Handshake.parseOptions lim id inp = some (.ok (reg, rest))) :
    ∃ own, Expected cfg file ids secrets id own ∧
      let w := wanted g (ownOf v own)
      (w.number ≠ 0 → w.number < 4294967295 → reg.ids.length ≤ w.number) ∧
      (w.tcpNumber ≠ 0 → w.tcpNumber < 65535 → reg.ports.length ≤ w.tcpNumber) ∧
      ∀ p o, reg.ids.get p = some o →
        p = id ∨ ∃ x, Conforms c w.patterns x ∧ p = if w.withID then id ++ ascii "-" ++ x else x := by
  obtain ⟨own, h1, h2⟩ := effective_limits hcfg hfile ho h hr
  obtain ⟨lim', e0, e1, e2, e3, e4, e5, e6⟩ := limitsOf_right s h2
  rw [hl] at e0; cases e0
  have hg : s.glob = g := by
    obtain ⟨t, gh, us, _, _, _, rfl⟩ := start_some h; rfl
  obtain ⟨os, _, _, _, _, hd, hh, htc, hre, _, _⟩ := Handshake.handshake_limits_partial lim id inp rest reg
    (by rw [e1, hg]; exact hmax) hp
  refine ⟨own, h1, ?_, ?_, ?_⟩
  · rw [← e2]; exact hh
  · rw [← e3]; exact htc
  · intro p o hpo
    obtain ⟨⟨op, ho1, ho2⟩, _⟩ := (hd.1 p o).1 hpo
    have hmem : op ∈ os := by
      have := List.mem_of_getElem? ho1
      unfold Handshake.optServices at this
      exact (List.mem_filter.mp this).1
    cases op with
    | next => simp [Handshake.Opt.host?] at ho2
    | tcp a b => simp [Handshake.Opt.host?] at ho2
    | idHost tls =>
      simp only [Handshake.Opt.host?, Option.some.injEq, Prod.mk.injEq] at ho2
      exact Or.inl ho2.1.symm
    | host tls x =>
      simp only [Handshake.Opt.host?, Option.some.injEq, Prod.mk.injEq] at ho2
      refine Or.inr ⟨x, ?_, ?_⟩
      · rcases hre tls x hmem with hn | hex
        · exact Or.inl (e5.1 hn)
        · exact Or.inr ((e6 x).1 hex)
      · rw [← e4]; exact ho2.1.symm

/-- **C119** The server starts exactly if the users are in order (C46) and every pattern, global or of a user that counts, is a regular
expression. -/
theorem starts_iff {c : Compile} {g : Glob} {k1 k2 : List Str} {cfg file : List (Str × Option User)}
    {ids secrets : List Str} (ho : Orders g k1 k2) :
    (∃ s, start c g k1 k2 cfg file ids secrets = some s) ↔
      ∃ t, startUsers cfg file ids secrets = .merged t ∧
        (∀ p ∈ g.host.regexStr.getD [] ++ g.hostRegex, ∃ f, c p = some f) ∧
        ∀ id u, (id, u) ∈ t → ∀ p ∈ u.host.regexStr.getD [], ∃ f, c p = some f := by
  constructor
  · rintro ⟨s, h⟩
    obtain ⟨t, gh, us, ht, hg, hu, rfl⟩ := start_some h
    refine ⟨t, ht, ?_, ?_⟩
    · intro p hp
      unfold parseGlobal at hg
      cases hc : compileAll c k2 with
      | none => rw [hc] at hg; cases hg
      | some fs => exact (compileAll_some hc).1 p ((ho.2 p).2 ((mem_patterns g p).2 hp))
    · clear h ht
      induction t generalizing us with
      | nil => simp
      | cons e t ih =>
        obtain ⟨k, u⟩ := e
        simp only [parseUsers] at hu
        cases hx : parseUser c g gh (tcpUser g u) with
        | none => rw [hx] at hu; cases hu
        | some x =>
          simp only [hx] at hu
          cases hxs : parseUsers c g gh t with
          | none => rw [hxs] at hu; cases hu
          | some xs =>
            intro id u' hm p hp
            rcases List.mem_cons.mp hm with hm | hm
            · cases hm
              exact (parseUser_spec ho hg hx).2.2 p hp
            · exact ih xs hxs id u' hm p hp
  · rintro ⟨t, ht, hgl, hus⟩
    obtain ⟨fs, hfs⟩ := (compileAll_iff (c := c) (ps := k2)).2
      (fun p hp => hgl p ((mem_patterns g p).1 ((ho.2 p).1 hp)))
    have hk1 : ∀ p ∈ k1, ∃ f, c p = some f := fun p hp => hgl p ((mem_patterns g p).1 ((ho.1 p).1 hp))
    have hg : ∃ gh, parseGlobal c g k1 k2 = some gh := by
      unfold parseGlobal; rw [hfs]; exact ⟨_, rfl⟩
    obtain ⟨gh, hg⟩ := hg
    have hstr := (parseGlobal_spec ho hg).2.2.1
    have hone : ∀ u : User, (∀ p ∈ u.host.regexStr.getD [], ∃ f, c p = some f) →
        ∃ r, parseUser c g gh (tcpUser g u) = some r := by
      rintro ⟨secret, tcps, tcpNumber, speed, connections, ⟨number, regexStr, withID⟩⟩ hu
      cases regexStr with
      | none =>
        obtain ⟨gs, hgs⟩ := compileAll_iff.2 hk1
        unfold parseUser tcpUser
        by_cases hs : speed = 0 <;> by_cases hcn : connections = 0 <;> cases number <;>
          simp [hs, hcn, hstr, hgs]
      | some ps =>
        obtain ⟨gs, hgs⟩ := compileAll_iff.2 hu
        simp only [Option.getD_some] at hgs
        unfold parseUser tcpUser
        by_cases hs : speed = 0 <;> by_cases hcn : connections = 0 <;> cases number <;>
          simp [hs, hcn, hgs]
    have hall : ∃ us, parseUsers c g gh t = some us := by
      clear ht
      induction t with
      | nil => exact ⟨[], rfl⟩
      | cons e t ih =>
        obtain ⟨k, u⟩ := e
        obtain ⟨x, hx⟩ := hone u (hus k u (by simp))
        obtain ⟨xs, hxs⟩ := ih (fun id u' hm => hus id u' (List.mem_cons_of_mem _ hm))
        exact ⟨_, by simp only [parseUsers, hx, hxs]; rfl⟩
    obtain ⟨us, hus'⟩ := hall
    exact ⟨⟨g, gh, us⟩, by simp only [start, ht, hg, hus']⟩

/-- The rule stated at libcs/server/server.go:899, 970: the command line counts before the file. For the number of hosts: -/
def CommandLineFirst : Prop :=
  ∀ (c : Compile) (g : Glob) (k1 k2 : List Str) (gh : Rec), Orders g k1 k2 → parseGlobal c g k1 k2 = some gh →
    g.hostNumber ≠ 0 → gh.number = some g.hostNumber

/-- **C119 fails** for `-hostNumber` and `-hostWithID`: wherever the file has a value, the command line has no effect. -/
theorem option_ignored {c : Compile} {g : Glob} {k1 k2 : List Str} {gh : Rec} {n : Nat} {b : Bool}
    (ho : Orders g k1 k2) (h : parseGlobal c g k1 k2 = some gh) (hn : g.host.number = some n)
    (hb : g.host.withID = some b) : gh.number = some n ∧ gh.withID = some b := by
  obtain ⟨g1, g2, _⟩ := parseGlobal_spec ho h
  rw [hn] at g1; rw [hb] at g2
  exact ⟨g1, g2⟩

theorem not_command_line_first : ¬ CommandLineFirst := by
  intro h
  have := h (fun _ => none) { hostNumber := 2, host := { number := some 100 } } [] []
    { number := some 100, regexStr := some [], regex := some [], withID := some false }
    ⟨by simp [patterns], by simp [patterns]⟩ rfl (by simp)
  revert this; decide

/-- **C119 holds** where the file says nothing. -/
theorem command_line_first_partial {c : Compile} {g : Glob} {k1 k2 : List Str} {gh : Rec}
    (ho : Orders g k1 k2) (h : parseGlobal c g k1 k2 = some gh) :
    (g.host.number = none → gh.number = some g.hostNumber) ∧ (g.host.withID = none → gh.withID = some g.hostWithID) := by
  obtain ⟨g1, g2, _⟩ := parseGlobal_spec ho h
  exact ⟨fun e => by rw [g1, e]; rfl, fun e => by rw [g2, e]; rfl⟩

/-! ## C120: with `hostWithID`, clients have hosts of their own -/

/-- Full property C120: with the id in front, two different clients never declare the same host. -/
def OwnHosts (id1 id2 : Bytes) : Prop :=
  ∀ (l1 l2 : Handshake.Limits) (inp1 inp2 rest1 rest2 : Bytes) (r1 r2 : Handshake.Reg),
    l1.withID = true → l2.withID = true → l1.maxOptions < 65535 → l2.maxOptions < 65535 →
    Handshake.parseOptions l1 id1 inp1 = some (.ok (r1, rest1)) →
    Handshake.parseOptions l2 id2 inp2 = some (.ok (r2, rest2)) →
    ∀ p o1 o2, r1.ids.get p = some o1 → r2.ids.get p = some o2 → False

theorem host_form {l : Handshake.Limits} {id inp rest : Bytes} {r : Handshake.Reg} (hw : l.withID = true)
    (hm : l.maxOptions < 65535) (h : Handshake.parseOptions l id inp = some (.ok (r, rest))) {p : Bytes}
    {o : Handshake.HostOpt} (hp : r.ids.get p = some o) : p = id ∨ ∃ x, p = id ++ 45 :: x := by
  obtain ⟨os, _, _, _, _, hd, _⟩ := Handshake.handshake_limits_partial l id inp rest r hm h
  obtain ⟨⟨op, ho1, ho2⟩, _⟩ := (hd.1 p o).1 hp
  cases op with
  | next => simp [Handshake.Opt.host?] at ho2
  | tcp a b => simp [Handshake.Opt.host?] at ho2
  | idHost tls =>
    simp only [Handshake.Opt.host?, Option.some.injEq, Prod.mk.injEq] at ho2
    exact Or.inl ho2.1.symm
  | host tls x =>
    simp only [Handshake.Opt.host?, Option.some.injEq, Prod.mk.injEq, hw, if_true] at ho2
    exact Or.inr ⟨x, by rw [← ho2.1]; simp [show ascii "-" = [45] from rfl]⟩

theorem before_dash {a b : Bytes} (ha : (45 : UInt8) ∉ a) (hb : (45 : UInt8) ∉ b) {x y : Bytes}
    (h : (a ++ x = b ++ y) ) (hx : x = [] ∨ ∃ x', x = 45 :: x') (hy : y = [] ∨ ∃ y', y = 45 :: y') : a = b := by
  induction a generalizing b with
  | nil =>
    cases b with
    | nil => rfl
    | cons d b =>
      rcases hx with rfl | ⟨x', rfl⟩
      · simp at h
      · simp only [List.nil_append, List.cons_append, List.cons.injEq] at h
        exact absurd (by rw [← h.1]; simp) hb
  | cons d a ih =>
    cases b with
    | nil =>
      rcases hy with rfl | ⟨y', rfl⟩
      · simp at h
      · simp only [List.nil_append, List.cons_append, List.cons.injEq] at h
        exact absurd (by rw [h.1]; simp) ha
    | cons e b =>
      simp only [List.cons_append, List.cons.injEq] at h
      obtain ⟨rfl, h⟩ := h
      rw [ih (fun hm => ha (List.mem_cons_of_mem _ hm)) (fun hm => hb (List.mem_cons_of_mem _ hm)) h]

/-- **C120** (part) It holds for ids without `-`. -/
theorem own_hosts_partial {id1 id2 : Bytes} (h1 : (45 : UInt8) ∉ id1) (h2 : (45 : UInt8) ∉ id2) (hne : id1 ≠ id2) :
    OwnHosts id1 id2 := by
  intro l1 l2 inp1 inp2 rest1 rest2 r1 r2 hw1 hw2 hm1 hm2 hp1 hp2 p o1 o2 hg1 hg2
  have f1 := host_form hw1 hm1 hp1 hg1
  have f2 := host_form hw2 hm2 hp2 hg2
  apply hne
  have e1 : ∃ x, p = id1 ++ x ∧ (x = [] ∨ ∃ x', x = 45 :: x') := by
    rcases f1 with rfl | ⟨x, rfl⟩
    · exact ⟨[], by simp, Or.inl rfl⟩
    · exact ⟨_, rfl, Or.inr ⟨x, rfl⟩⟩
  have e2 : ∃ x, p = id2 ++ x ∧ (x = [] ∨ ∃ x', x = 45 :: x') := by
    rcases f2 with rfl | ⟨x, rfl⟩
    · exact ⟨[], by simp, Or.inl rfl⟩
    · exact ⟨_, rfl, Or.inr ⟨x, rfl⟩⟩
  obtain ⟨x, ex, hx⟩ := e1
  obtain ⟨y, ey, hy⟩ := e2
  exact before_dash h1 h2 (ex.symm.trans ey) hx hy

theorem parse_idHost (id : Bytes) :
    Handshake.parseOptions ⟨600, 0, 0, [], true⟩ id [0] = some (.ok (⟨[(id, ⟨0, false⟩)], []⟩, [])) := by
  simp [Handshake.parseOptions, Handshake.parseLoop, Handshake.PState.init, Handshake.parseStep, Handshake.readByte,
    Handshake.readN, Handshake.optIdHost, Handshake.inc16, AMap.set, bind, Except.bind]

theorem parse_host (id x : Bytes) (hx : x.length < 256) :
    Handshake.parseOptions ⟨600, 0, 0, [], true⟩ id (3 :: UInt8.ofNat x.length :: x) =
      some (.ok (⟨[(id ++ [45] ++ x, ⟨0, false⟩)], []⟩, [])) := by
  have hl : (UInt8.ofNat x.length).toNat = x.length := by simp; omega
  simp [Handshake.parseOptions, Handshake.parseLoop, Handshake.PState.init, Handshake.parseStep, Handshake.readByte,
    Handshake.readN, Handshake.optHost, Handshake.inc16, AMap.set, bind, Except.bind, hl, Nat.mod_eq_of_lt hx]

/-- **C120 fails** for every pair of ids of which one is the other with `-` and something behind it: the client with the shorter id can
claim the other's own host. -/
theorem host_claimed (id x : Bytes) (hx : x.length < 256) : ¬ OwnHosts id (id ++ [45] ++ x) := by
  intro h
  refine h ⟨600, 0, 0, [], true⟩ ⟨600, 0, 0, [], true⟩ _ _ _ _ _ _ rfl rfl (by decide) (by decide)
    (parse_host id x hx) (parse_idHost _) (id ++ [45] ++ x) ⟨0, false⟩ ⟨0, false⟩ ?_ ?_ <;> simp [AMap.get]

/-! ## Witnesses -/

/-- A pattern is a text every host must begin with; `[0]` is no pattern. -/
def exC : Compile := fun p => if p = [0] then none else some (fun x => p.isPrefixOf x)

example : (start exC { host := { number := some 3, regexStr := some [[97]] }, hostRegex := [[98]] } [[97], [98]] [[98], [97]]
    [([1], some { secret := [9], host := { number := some 1 }, speed := 5 })] [] [[2]] [[8]]).isSome = true := rfl
example : (start exC { hostRegex := [[0]] } [[0]] [[0]] [] [] [] []).isSome = false := rfl
/-- a client with a limit of its own declares one host that conforms -/
example : ∃ s r lim reg rest,
    start exC { host := { number := some 3, regexStr := some [[97]] }, hostRegex := [[98]] } [[97], [98]] [[98], [97]]
      [([1], some { secret := [9], host := { number := some 1 }, speed := 5 })] [] [[2]] [[8]] = some s ∧
    record s .configured [1] [9] = some r ∧ limitsOf s r = some lim ∧
    Handshake.parseOptions lim [1] [3, 2, 98, 99] = some (.ok (reg, rest)) ∧ reg.ids = [([98, 99], ⟨0, false⟩)] :=
  ⟨_, _, _, _, _, rfl, rfl, rfl, rfl, rfl⟩
example : wanted { host := { number := some 3 }, speed := 7 } (some { secret := [9], tcpNumber := some 4 }) =
    ⟨3, 4, 7, 10, [], false⟩ := rfl
example : OwnHosts [97] [98] := own_hosts_partial (by decide) (by decide) (by decide)
example : ¬ OwnHosts [97] [97, 45, 98] := host_claimed [97] [98] (by decide)

end Verif.Config.Lim
