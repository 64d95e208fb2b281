import Verif.Common
/-!
# C34: service options on the command line

Model of `parseServices` (libcs/client/client.go:770-885) and of the positions given to the options
(libcs/config/position.go:36-52, libcs/config/positionslice.go:30-38).

The conversion of an option's text to its value (`fmt.Sscanf`, whose error is ignored by
position.go:45) is in `OptValues`. Not modelled: `url.Parse`, which is a parameter `U` returning what the code uses of the result.
-/
set_option linter.unusedSimpArgs false
set_option linter.unusedVariables false
namespace Verif.Config.Services
open Verif

inductive Scheme where
  | http | https | tcp | other
deriving DecidableEq, Repr

/-- What `parseServices` looks at in a parsed URL. -/
structure URL where
  scheme : Scheme
  host : Bytes
deriving DecidableEq, Repr

/-- One per-service option on the command line (libcs/client/config.go:55-60). -/
inductive Opt where
  | loc (v : Bytes)
  | port (v : Nat)
  | rand (v : Bool)
  | timeout (v : Nat)
  | useLocal (v : Bool)
  | pre (v : Bytes)
deriving DecidableEq, Repr

/-- libcs/client/config.go:168-177 `service` (`url = none` is a nil `*url.URL`; durations in nanoseconds). -/
structure Svc where
  url : Option URL := none
  pre : Bytes := []
  port : Nat := 0
  rand : Option Bool := none
  timeout : Nat := 0
  useLocal : Bool := false
deriving DecidableEq, Repr

/-- libcs/client/config.go:55-60, 62: the positioned options and the services of the YAML file. -/
structure Cfg where
  id : Bytes
  loc : List (Bytes × Nat) := []
  port : List (Nat × Nat) := []
  rand : List (Bool × Nat) := []
  timeout : List (Nat × Nat) := []
  useLocal : List (Bool × Nat) := []
  pre : List (Bytes × Nat) := []
  services : List Svc := []

/-- libcs/config/positionslice.go:30-38 `Set`, libcs/config/position.go:48: the next position is attached and the option appended.
(Simplification: the counter does not overflow 2^32.) -/
def setOpt (c : Cfg) (n : Nat) : Opt → Cfg
  | .loc v => { c with loc := c.loc ++ [(v, n)] }
  | .port v => { c with port := c.port ++ [(v, n)] }
  | .rand v => { c with rand := c.rand ++ [(v, n)] }
  | .timeout v => { c with timeout := c.timeout ++ [(v, n)] }
  | .useLocal v => { c with useLocal := c.useLocal ++ [(v, n)] }
  | .pre v => { c with pre := c.pre ++ [(v, n)] }

/-- Parsing of the command line: options in order, positions `n+1, n+2, …`. -/
def setAll : Cfg → Nat → List Opt → Cfg
  | c, _, [] => c
  | c, n, o :: os => setAll (setOpt c (n + 1) o) (n + 1) os

/-- libcs/client/client.go:782-784: does the option at position `p` belong to the `i`-th local? -/
def applies (locals : List (Bytes × Nat)) (i p : Nat) : Bool :=
  locals.length == 1 ||
    (match locals[i]? with
     | none => false
     | some l => decide (p > l.2) &&
        (i + 1 == locals.length || match locals[i + 1]? with | none => false | some l' => decide (p < l'.2)))

/-- libcs/client/client.go:781-787 and the loops like it: the last option that applies overwrites the field. -/
def attach {α} (locals : List (Bytes × Nat)) (i : Nat) (d : α) (opts : List (α × Nat)) : α :=
  opts.foldl (fun acc x => if applies locals i x.2 then x.1 else acc) d

/-- libcs/client/client.go:788-794: the address of the loop variable is stored. With the language version of go.mod (1.19)
there is one variable for the whole loop, so when the loop is over a stored pointer points to the value of the
last element of `config.RemoteTCPRandom`. -/
def attachRand (locals : List (Bytes × Nat)) (i : Nat) (opts : List (Bool × Nat)) : Option Bool :=
  if opts.any (fun x => applies locals i x.2) then opts.getLast?.map (·.1) else none

/-- libcs/client/client.go:774-816: the service of the `i`-th local; `none` when the URL is invalid. -/
def localService (U : Bytes → Option URL) (c : Cfg) (i : Nat) (v : Bytes) : Option Svc :=
  match U v with
  | none => none
  | some u => some {
      url := some u
      port := attach c.loc i 0 c.port
      rand := attachRand c.loc i c.rand
      timeout := attach c.loc i 0 c.timeout
      useLocal := attach c.loc i false c.useLocal
      pre := attach c.loc i [] c.pre }

inductive Err where
  | badUrl | multi | noLocalPort | noRemotePort | badScheme | badPrefix | duplicate
deriving DecidableEq, Repr

/-- Result of `parseServices`: `panic` is a nil pointer dereference. -/
inductive Res (α : Type) where
  | ok (a : α)
  | err (e : Err)
  | panic
deriving DecidableEq, Repr

/-- libcs/client/client.go:774-816, the loop over the locals from the `i`-th on. -/
def localServices (U : Bytes → Option URL) (c : Cfg) : Nat → List (Bytes × Nat) → Option (List Svc)
  | _, [] => some []
  | i, l :: ls =>
    match localService U c i l.1 with
    | none => none
    | some s => (localServices U c (i + 1) ls).map (s :: ·)

/-- `strings.LastIndexByte(host, ':')` and `validOptionalPort`: net/url `(*URL).Port`. Written from the right:
the digits after the last colon, if everything after it is a digit. -/
def portOf (host : Bytes) : Bytes :=
  let ds := host.reverse.takeWhile (fun b => b != 58)
  if ds.length < host.length && ds.all (fun b => decide (48 ≤ b.toNat) && decide (b.toNat ≤ 57)) then ds.reverse else []

def secondsNs : Nat := 1000000000

/-- libcs/client/client.go:821-874: one iteration of the second loop. `used` is `usedIDASHostPrefix`. -/
def finish (id : Bytes) (used : Bool) (s : Svc) : Res (Svc × Bool) :=
  match s.url with
  | none => .panic                                              -- 822-823 sets err, 831/833 dereferences
  | some u =>
    let s := { s with timeout := if s.timeout = 0 then 120 * secondsNs else s.timeout }
    let rnd := s.rand.getD (u.scheme == .tcp && s.port == 0)
    let s := { s with rand := some rnd }
    if (u.scheme == .http || u.scheme == .https) && s.pre.isEmpty && used then .err .multi
    else
      let usesId := (u.scheme == .http || u.scheme == .https) && s.pre.isEmpty
      let s := if usesId then { s with pre := id } else s
      let used := used || usesId
      let fin (s : Svc) : Res (Svc × Bool) :=
        if s.pre.length > 0 ∧ (s.pre.length < 1 ∨ s.pre.length > 200) then .err .badPrefix else .ok (s, used)
      match u.scheme with
      | .http => fin { s with url := some (if u.host.contains 58 then u else { u with host := u.host ++ ascii ":80" }) }
      | .https => fin { s with url := some (if u.host.contains 58 then u else { u with host := u.host ++ ascii ":443" }) }
      | .tcp =>
        if portOf u.host = [] then .err .noLocalPort
        else if s.port = 0 ∧ rnd = false then .err .noRemotePort
        else fin s
      | .other => .err .badScheme

/-- libcs/client/client.go:820-874: the loop. -/
def finishAll (id : Bytes) : Bool → List Svc → Res (List Svc)
  | _, [] => .ok []
  | used, s :: ss =>
    match finish id used s with
    | .panic => .panic
    | .err e => .err e
    | .ok (s', used') =>
      match finishAll id used' ss with
      | .ok r => .ok (s' :: r)
      | .err e => .err e
      | .panic => .panic

/-- libcs/client/client.go:877-885: some later service has the same nonempty prefix. -/
def dup : List Svc → Bool
  | [] => false
  | s :: ss => (!s.pre.isEmpty && ss.any (fun t => s.pre == t.pre)) || dup ss

/-- libcs/client/client.go:770-888 `parseServices`. -/
def parseServices (U : Bytes → Option URL) (c : Cfg) : Res (List Svc) :=
  match localServices U c 0 c.loc with
  | none => .err .badUrl
  | some ls =>
    match finishAll c.id false (ls ++ c.services) with
    | .ok r => if dup r then .err .duplicate else .ok r
    | .err e => .err e
    | .panic => .panic

/-! ## Specification, on the command line itself -/

/-- The command line cut at the locals: what comes before the first one, and each local with the options
between it and the next. -/
def segments : List Opt → List Opt × List (Bytes × List Opt)
  | [] => ([], [])
  | .loc v :: os => ([], (v, (segments os).1) :: (segments os).2)
  | o :: os => (o :: (segments os).1, (segments os).2)

/-- The last value of one kind of option in a list of options. -/
def lastOf {α} (f : Opt → Option α) (os : List Opt) : Option α := (os.filterMap f).getLast?

def getPort : Opt → Option Nat | .port v => some v | _ => none
def getRand : Opt → Option Bool | .rand v => some v | _ => none
def getTimeout : Opt → Option Nat | .timeout v => some v | _ => none
def getUse : Opt → Option Bool | .useLocal v => some v | _ => none
def getPre : Opt → Option Bytes | .pre v => some v | _ => none

/-- The service that the options `os` describe for local `v`. -/
def describe (u : URL) (os : List Opt) : Svc where
  url := some u
  port := (lastOf getPort os).getD 0
  rand := lastOf getRand os
  timeout := (lastOf getTimeout os).getD 0
  useLocal := (lastOf getUse os).getD false
  pre := (lastOf getPre os).getD []

/-- The same service up to the random flag. -/
def SameButRandom (a b : Svc) : Prop := { a with rand := none } = { b with rand := none }

/-- The local services of a command line, from the parser. -/
def commandLine (U : Bytes → Option URL) (id : Bytes) (n : Nat) (cmd : List Opt) : Option (List Svc) :=
  let c := setAll { id := id } n cmd
  localServices U c 0 c.loc

/-! ## Lemmas: positions -/

/-- The options with the positions they get. -/
def pos : Nat → List Opt → List (Opt × Nat)
  | _, [] => []
  | n, o :: os => (o, n + 1) :: pos (n + 1) os

def withPos {α} (f : Opt → Option α) (x : Opt × Nat) : Option (α × Nat) := (f x.1).map (·, x.2)

def getLoc : Opt → Option Bytes | .loc v => some v | _ => none

/-- The positioned cut. -/
def psegs : List (Opt × Nat) → List (Opt × Nat) × List ((Bytes × Nat) × List (Opt × Nat))
  | [] => ([], [])
  | (.loc v, p) :: os => ([], ((v, p), (psegs os).1) :: (psegs os).2)
  | o :: os => (o :: (psegs os).1, (psegs os).2)

def flatSegs (ss : List ((Bytes × Nat) × List (Opt × Nat))) : List (Opt × Nat) :=
  ss.flatMap (fun s => (Opt.loc s.1.1, s.1.2) :: s.2)

theorem psegs_flat (l : List (Opt × Nat)) : (psegs l).1 ++ flatSegs (psegs l).2 = l := by
  induction l with
  | nil => rfl
  | cons o os ih =>
    obtain ⟨o, p⟩ := o
    cases o <;> simp [psegs, flatSegs] at ih ⊢ <;> exact ih

theorem pos_map (n : Nat) (cmd : List Opt) : (pos n cmd).map (·.1) = cmd := by
  induction cmd generalizing n with
  | nil => rfl
  | cons o os ih => simp [pos, ih]

theorem segments_pos (n : Nat) (cmd : List Opt) :
    segments cmd = ((psegs (pos n cmd)).1.map (·.1), (psegs (pos n cmd)).2.map (fun s => (s.1.1, s.2.map (·.1)))) := by
  induction cmd generalizing n with
  | nil => rfl
  | cons o os ih =>
    have := ih (n + 1)
    cases o <;> simp [segments, pos, psegs, this]

theorem locs_psegs (l : List (Opt × Nat)) : l.filterMap (withPos getLoc) = (psegs l).2.map (·.1) := by
  induction l with
  | nil => rfl
  | cons o os ih =>
    obtain ⟨o, p⟩ := o
    cases o <;> simp [psegs, withPos, getLoc, List.filterMap_cons] at ih ⊢ <;> simp [ih]

theorem setAll_fields (c : Cfg) (n : Nat) (cmd : List Opt) :
    let c' := setAll c n cmd
    c'.id = c.id ∧ c'.services = c.services ∧
    c'.loc = c.loc ++ (pos n cmd).filterMap (withPos getLoc) ∧
    c'.port = c.port ++ (pos n cmd).filterMap (withPos getPort) ∧
    c'.rand = c.rand ++ (pos n cmd).filterMap (withPos getRand) ∧
    c'.timeout = c.timeout ++ (pos n cmd).filterMap (withPos getTimeout) ∧
    c'.useLocal = c.useLocal ++ (pos n cmd).filterMap (withPos getUse) ∧
    c'.pre = c.pre ++ (pos n cmd).filterMap (withPos getPre) := by
  induction cmd generalizing c n with
  | nil => simp [setAll, pos]
  | cons o os ih =>
    have := ih (setOpt c (n + 1) o) (n + 1)
    dsimp only at this ⊢
    unfold setAll pos
    obtain ⟨h1, h2, h3, h4, h5, h6, h7, h8⟩ := this
    rw [h1, h2, h3, h4, h5, h6, h7, h8]
    cases o <;> simp [setOpt, withPos, getLoc, getPort, getRand, getTimeout, getUse, getPre, List.filterMap_cons]

theorem pos_lt (n : Nat) (cmd : List Opt) : ∀ x ∈ pos n cmd, n < x.2 := by
  induction cmd generalizing n with
  | nil => simp [pos]
  | cons o os ih =>
    intro x hx
    simp only [pos, List.mem_cons] at hx
    rcases hx with h | h
    · subst h; simp
    · have := ih (n + 1) x h; omega

theorem pos_sorted (n : Nat) (cmd : List Opt) : (pos n cmd).Pairwise (fun a b => a.2 < b.2) := by
  induction cmd generalizing n with
  | nil => exact List.Pairwise.nil
  | cons o os ih =>
    exact List.Pairwise.cons (fun x hx => pos_lt (n + 1) os x hx) (ih (n + 1))

/-- `attach` is the last matching value. -/
theorem attach_eq {α} (locals : List (Bytes × Nat)) (i : Nat) (d : α) (opts : List (α × Nat)) :
    attach locals i d opts = (((opts.filter (fun x => applies locals i x.2)).map (·.1)).getLast?).getD d := by
  unfold attach
  induction opts generalizing d with
  | nil => rfl
  | cons x xs ih =>
    rw [List.foldl_cons, ih]
    by_cases h : applies locals i x.2 = true
    · rw [if_pos h, List.filter_cons, if_pos h, List.map_cons]
      cases hl : (xs.filter (fun x => applies locals i x.2)).map (·.1) with
      | nil => simp
      | cons y ys => rw [List.getLast?_cons_cons]; simp [List.getLast?_cons]
    · rw [if_neg h, List.filter_cons, if_neg h]

/-- Filtering by position commutes with selecting one kind of option. -/
theorem filter_withPos {α} (f : Opt → Option α) (q : Nat → Bool) (l : List (Opt × Nat)) :
    (l.filterMap (withPos f)).filter (fun x => q x.2) = (l.filter (fun x => q x.2)).filterMap (withPos f) := by
  induction l with
  | nil => rfl
  | cons x xs ih =>
    simp only [List.filterMap_cons, List.filter_cons]
    cases hf : withPos f x with
    | none =>
      by_cases hq : q x.2 = true
      · rw [if_pos hq, List.filterMap_cons, hf]; exact ih
      · rw [if_neg hq]; exact ih
    | some y =>
      have hy : y.2 = x.2 := by
        unfold withPos at hf
        cases hfx : f x.1 with
        | none => rw [hfx] at hf; cases hf
        | some v => rw [hfx] at hf; cases hf; rfl
      dsimp only
      rw [List.filter_cons, hy]
      by_cases hq : q x.2 = true
      · rw [if_pos hq, if_pos hq, List.filterMap_cons, hf, ih]
      · rw [if_neg hq, if_neg hq]; exact ih

theorem withPos_fst {α} (f : Opt → Option α) (l : List (Opt × Nat)) :
    (l.filterMap (withPos f)).map (·.1) = (l.map (·.1)).filterMap f := by
  induction l with
  | nil => rfl
  | cons x xs ih =>
    simp only [List.filterMap_cons, List.map_cons]
    unfold withPos
    cases hf : f x.1 with
    | none => exact ih
    | some v => simp only [Option.map_some, List.map_cons]; rw [← ih]; rfl

def below (B : List ((Bytes × Nat) × List (Opt × Nat))) (p : Nat) : Bool :=
  match B with | [] => true | b :: _ => decide (p < b.1.2)

/-- The window of the `i`-th local selects exactly the options of its segment (several locals). -/
theorem window {pre : List (Opt × Nat)} {A B : List ((Bytes × Nat) × List (Opt × Nat))} {l : Bytes × Nat}
    {os : List (Opt × Nat)} (hlen : (A ++ (l, os) :: B).length ≠ 1)
    (hs : (pre ++ flatSegs (A ++ (l, os) :: B)).Pairwise (fun a b => a.2 < b.2)) :
    (pre ++ flatSegs (A ++ (l, os) :: B)).filter
      (fun x => applies ((A ++ (l, os) :: B).map (·.1)) A.length x.2) = os := by
  have hq : ∀ p, applies ((A ++ (l, os) :: B).map (·.1)) A.length p =
      (decide (l.2 < p) && below B p) := by
    intro p
    unfold applies
    have h1 : (((A ++ (l, os) :: B).map (·.1)).length == 1) = false := by simpa using hlen
    rw [h1]
    have h2 : ((A ++ (l, os) :: B).map (·.1))[A.length]? = some l := by simp
    rw [h2]
    cases B with
    | nil => simp [below]
    | cons b B' =>
      have h3 : (A.length + 1 == ((A ++ (l, os) :: b :: B').map (·.1)).length) = false := by
        simp only [List.length_map, List.length_append, List.length_cons, beq_eq_false_iff_ne]; omega
      rw [h3]
      simp [below]
  simp only [hq]
  have e : pre ++ flatSegs (A ++ (l, os) :: B) = (pre ++ flatSegs A) ++ ((Opt.loc l.1, l.2) :: (os ++ flatSegs B)) := by
    simp [flatSegs]
  rw [e] at hs ⊢
  obtain ⟨-, h2, h3⟩ := List.pairwise_append.1 hs
  obtain ⟨h4, h5⟩ := List.pairwise_cons.1 h2
  obtain ⟨-, h6, h7⟩ := List.pairwise_append.1 h5
  have f1 : (pre ++ flatSegs A).filter (fun x => decide (l.2 < x.2) && below B x.2) = [] := by
    rw [List.filter_eq_nil_iff]
    intro x hx
    have := h3 x hx (Opt.loc l.1, l.2) List.mem_cons_self
    simp only [Bool.and_eq_true, decide_eq_true_eq, not_and]
    intro h; dsimp only at this; omega
  have f2 : (decide (l.2 < l.2) && below B l.2) = false := by simp
  have f3 : os.filter (fun x => decide (l.2 < x.2) && below B x.2) = os := by
    rw [List.filter_eq_self]
    intro x hx
    have h8 := h4 x (by simp [hx])
    cases B with
    | nil => simpa [below] using h8
    | cons b B' =>
      have h9 := h7 x hx (Opt.loc b.1.1, b.1.2) (by simp [flatSegs])
      simp only [below, Bool.and_eq_true, decide_eq_true_eq]
      exact ⟨h8, h9⟩
  have f4 : (flatSegs B).filter (fun x => decide (l.2 < x.2) && below B x.2) = [] := by
    rw [List.filter_eq_nil_iff]
    intro x hx
    cases B with
    | nil => simp [flatSegs] at hx
    | cons b B' =>
      simp only [below, Bool.and_eq_true, decide_eq_true_eq, not_and]
      intro h10
      have e2 : flatSegs (b :: B') = (Opt.loc b.1.1, b.1.2) :: (b.2 ++ flatSegs B') := by simp [flatSegs]
      rw [e2] at hx h6
      obtain ⟨h11, -⟩ := List.pairwise_cons.1 h6
      cases hx with
      | head => simp
      | tail _ h => have := h11 x h; dsimp only at this; omega
  rw [List.filter_append, f1, List.filter_cons, f2, List.filter_append, f3, f4]
  simp

/-- With a single local every option applies. -/
theorem window_single {locals : List (Bytes × Nat)} (h : locals.length = 1) (i : Nat) (l : List (Opt × Nat)) :
    l.filter (fun x => applies locals i x.2) = l := by
  rw [List.filter_eq_self]
  intro x _
  simp [applies, h]

/-- The options that apply to the `k`-th of the locals of a command line: all of them if there is only one
local, otherwise those between it and the next. -/
def belong (cmd : List Opt) (os : List Opt) : List Opt :=
  if (segments cmd).2.length = 1 then cmd else os

/-- What the parser finds for the `k`-th local. -/
theorem selected (id : Bytes) (n : Nat) (cmd : List Opt) (k : Nat) (v : Bytes) (os : List Opt)
    (hk : (segments cmd).2[k]? = some (v, os)) :
    let c := setAll { id := id } n cmd
    ((pos n cmd).filter (fun x => applies c.loc k x.2)).map (·.1) = belong cmd os ∧ (c.loc[k]?).map (·.1) = some v ∧
      c.loc.length = (segments cmd).2.length := by
  obtain ⟨-, -, hloc, -⟩ := setAll_fields { id := id } n cmd
  dsimp only at hloc ⊢
  rw [hloc, List.nil_append, locs_psegs]
  have hseg := segments_pos n cmd
  have hfl := psegs_flat (pos n cmd)
  have hso := pos_sorted n cmd
  rw [hseg] at hk
  dsimp only at hk
  rw [List.getElem?_map] at hk
  cases hp : (psegs (pos n cmd)).2[k]? with
  | none => rw [hp] at hk; cases hk
  | some s =>
    rw [hp] at hk
    simp only [Option.map_some, Option.some.injEq, Prod.mk.injEq] at hk
    have hkl : k < (psegs (pos n cmd)).2.length := by
      rcases Nat.lt_or_ge k (psegs (pos n cmd)).2.length with h | h
      · exact h
      · rw [List.getElem?_eq_none h] at hp; cases hp
    refine ⟨?_, by simp [hp, hk.1], by rw [hseg]; simp⟩
    unfold belong
    rw [hseg]
    dsimp only
    rw [List.length_map]
    by_cases h1 : (psegs (pos n cmd)).2.length = 1
    · rw [if_pos h1, window_single (by simpa using h1), pos_map]
    · rw [if_neg h1]
      generalize hS : psegs (pos n cmd) = S at *
      have hsplit : S.2 = S.2.take k ++ s :: S.2.drop (k + 1) := by
        have h2 : S.2[k] = s := by
          have := List.getElem?_eq_getElem hkl
          rw [this] at hp
          exact Option.some.inj hp
        rw [← h2, List.getElem_cons_drop, List.take_append_drop]
      have hlen : (S.2.take k).length = k := by rw [List.length_take]; omega
      have hw := window (pre := S.1) (A := S.2.take k) (B := S.2.drop (k + 1)) (l := s.1) (os := s.2)
        (by rw [← hsplit]; exact h1) (by rw [← hsplit, hfl]; exact hso)
      rw [hlen, ← hsplit, hfl] at hw
      rw [hw]
      exact hk.2

/-- One service of the command line. -/
theorem localService_spec (U : Bytes → Option URL) (id : Bytes) (n : Nat) (cmd : List Opt) (k : Nat) (v : Bytes)
    (os : List Opt) (hk : (segments cmd).2[k]? = some (v, os)) :
    localService U (setAll { id := id } n cmd) k v = (U v).map (fun u =>
      { describe u (belong cmd os) with
        rand := if (lastOf getRand (belong cmd os)).isSome then lastOf getRand cmd else none }) := by
  have hsel := (selected id n cmd k v os hk).1
  obtain ⟨-, -, -, hport, hrand, hto, huse, hpre⟩ := setAll_fields { id := id } n cmd
  dsimp only at hsel hport hrand hto huse hpre
  rw [List.nil_append] at hport hrand hto huse hpre
  have key : ∀ {α : Type} (f : Opt → Option α) (d : α),
      attach (setAll { id := id } n cmd).loc k d ((pos n cmd).filterMap (withPos f)) = (lastOf f (belong cmd os)).getD d := by
    intro α f d
    rw [attach_eq, filter_withPos f (fun p => applies (setAll { id := id } n cmd).loc k p), withPos_fst, hsel]
    rfl
  have hr : attachRand (setAll { id := id } n cmd).loc k ((pos n cmd).filterMap (withPos getRand)) =
      if (lastOf getRand (belong cmd os)).isSome then lastOf getRand cmd else none := by
    unfold attachRand lastOf
    have e1 : ((pos n cmd).filterMap (withPos getRand)).getLast?.map (·.1) = (cmd.filterMap getRand).getLast? := by
      rw [← List.getLast?_map, withPos_fst, pos_map]
    rw [e1]
    have e2 : ((pos n cmd).filterMap (withPos getRand)).any (fun x => applies (setAll { id := id } n cmd).loc k x.2) =
        ((belong cmd os).filterMap getRand).getLast?.isSome := by
      rw [← hsel, ← withPos_fst, ← filter_withPos getRand (fun p => applies (setAll { id := id } n cmd).loc k p)]
      generalize (pos n cmd).filterMap (withPos getRand) = L
      induction L with
      | nil => rfl
      | cons x L ih =>
        rw [List.any_cons, List.filter_cons, ih]
        by_cases hq : applies (setAll { id := id } n cmd).loc k x.2 = true
        · rw [if_pos hq]; simp [hq]
        · rw [if_neg hq]; simp [hq]
    rw [e2]
  unfold localService
  cases U v with
  | none => rfl
  | some u =>
    simp only [Option.map_some, Option.some.injEq]
    rw [hport, hrand, hto, huse, hpre, key getPort, key getTimeout, key getUse, key getPre, hr]
    rfl

theorem localServices_index (U : Bytes → Option URL) (c : Cfg) : ∀ (ls : List (Bytes × Nat)) (i : Nat) (r : List Svc),
    localServices U c i ls = some r → r.length = ls.length ∧
      ∀ (j : Nat) (l : Bytes × Nat), ls[j]? = some l → ∃ s, r[j]? = some s ∧ localService U c (i + j) l.1 = some s := by
  intro ls
  induction ls with
  | nil => intro i r h; cases h; exact ⟨rfl, by intro j l h; simp at h⟩
  | cons l ls ih =>
    intro i r h
    unfold localServices at h
    cases h1 : localService U c i l.1 with
    | none => rw [h1] at h; cases h
    | some s =>
      rw [h1] at h
      dsimp only at h
      cases h2 : localServices U c (i + 1) ls with
      | none => rw [h2] at h; cases h
      | some r' =>
        rw [h2] at h
        cases h
        obtain ⟨h3, h4⟩ := ih (i + 1) r' h2
        refine ⟨by simp [h3], ?_⟩
        intro j l' hj
        cases j with
        | zero =>
          simp only [List.getElem?_cons_zero, Option.some.injEq] at hj
          subst hj
          exact ⟨s, by simp, by simpa using h1⟩
        | succ j =>
          rw [List.getElem?_cons_succ] at hj
          obtain ⟨s', h5, h6⟩ := h4 j l' hj
          exact ⟨s', by simpa using h5, by rw [← h6]; congr 1; omega⟩

theorem localServices_none (U : Bytes → Option URL) (c : Cfg) : ∀ (ls : List (Bytes × Nat)) (i : Nat),
    (localServices U c i ls = none ↔ ∃ l ∈ ls, U l.1 = none) := by
  intro ls
  induction ls with
  | nil => intro i; simp [localServices]
  | cons l ls ih =>
    intro i
    unfold localServices localService
    cases h : U l.1 with
    | none => simp [h]
    | some u =>
      simp only [Option.map_eq_none_iff, ih, List.mem_cons, exists_eq_or_imp, h]
      simp

/-! ## Theorems -/

/-- C34: each local of the command line becomes one service, in order, configured by the last option of each
kind among those given after it and before the next local (by all options when there is only one local), and by
nothing else. The flag `-remoteTCPRandom` is treated apart, below. -/
theorem options_attach_partial (U : Bytes → Option URL) (id : Bytes) (n : Nat) (cmd : List Opt) (r : List Svc)
    (h : commandLine U id n cmd = some r) :
    r.length = (segments cmd).2.length ∧
    ∀ (k : Nat) (v : Bytes) (os : List Opt), (segments cmd).2[k]? = some (v, os) →
      ∃ u s, U v = some u ∧ r[k]? = some s ∧
        SameButRandom s (describe u (if (segments cmd).2.length = 1 then cmd else os)) := by
  unfold commandLine at h
  dsimp only at h
  obtain ⟨h1, h2⟩ := localServices_index U _ _ _ _ h
  refine ⟨?_, ?_⟩
  · rw [h1]
    have hl : (setAll { id := id } n cmd).loc.length = (segments cmd).2.length := by
      obtain ⟨-, -, hloc, -⟩ := setAll_fields { id := id } n cmd
      dsimp only at hloc
      rw [hloc, List.nil_append, locs_psegs, segments_pos n cmd]; simp
    exact hl
  · intro k v os hk
    obtain ⟨-, hv, -⟩ := selected id n cmd k v os hk
    cases hl : (setAll { id := id } n cmd).loc[k]? with
    | none => rw [hl] at hv; cases hv
    | some l =>
      rw [hl] at hv
      simp only [Option.map_some, Option.some.injEq] at hv
      obtain ⟨s, hs, hls⟩ := h2 k l hl
      rw [Nat.zero_add, hv, localService_spec U id n cmd k v os hk] at hls
      cases hu : U v with
      | none => rw [hu] at hls; cases hls
      | some u =>
        rw [hu] at hls
        simp only [Option.map_some, Option.some.injEq] at hls
        exact ⟨u, s, rfl, hs, by rw [← hls]; rfl⟩

/-- The command line is refused at this stage exactly when the URL of some local is invalid. -/
theorem command_line_refused (U : Bytes → Option URL) (id : Bytes) (n : Nat) (cmd : List Opt) :
    commandLine U id n cmd = none ↔ ∃ s ∈ (segments cmd).2, U s.1 = none := by
  unfold commandLine
  dsimp only
  rw [localServices_none]
  obtain ⟨-, -, hloc, -⟩ := setAll_fields { id := id } n cmd
  dsimp only at hloc
  rw [hloc, List.nil_append, locs_psegs, segments_pos n cmd]
  constructor
  · rintro ⟨l, hl, hu⟩
    obtain ⟨s, hs, e⟩ := List.mem_map.1 hl
    exact ⟨_, List.mem_map.2 ⟨s, hs, rfl⟩, by dsimp only; rw [e]; exact hu⟩
  · rintro ⟨l, hl, hu⟩
    obtain ⟨s, hs, e⟩ := List.mem_map.1 hl
    exact ⟨_, List.mem_map.2 ⟨s, hs, rfl⟩, by rw [← e] at hu; exact hu⟩

theorem segments_sub (cmd : List Opt) : (∀ o ∈ (segments cmd).1, o ∈ cmd) ∧
    ∀ s ∈ (segments cmd).2, ∀ o ∈ s.2, o ∈ cmd := by
  induction cmd with
  | nil => simp [segments]
  | cons x cmd ih =>
    obtain ⟨h1, h2⟩ := ih
    cases x with
    | loc v =>
      refine ⟨by simp [segments], ?_⟩
      intro s hs o ho
      simp only [segments, List.mem_cons] at hs
      rcases hs with h | h
      · subst h; exact List.mem_cons_of_mem _ (h1 o ho)
      · exact List.mem_cons_of_mem _ (h2 s h o ho)
    | _ =>
      refine ⟨?_, fun s hs o ho => List.mem_cons_of_mem _ (h2 s hs o ho)⟩
      intro o ho
      simp only [segments, List.mem_cons] at ho
      rcases ho with h | h
      · subst h; exact List.mem_cons_self
      · exact List.mem_cons_of_mem _ (h1 o h)

/-- C34, `-remoteTCPRandom` as the code treats it: if the option is given for the service at all, the value is
that of the *last* `-remoteTCPRandom` of the whole command line, wherever it stands. -/
theorem random_flag_actual (U : Bytes → Option URL) (id : Bytes) (n : Nat) (cmd : List Opt) (r : List Svc)
    (h : commandLine U id n cmd = some r) (k : Nat) (v : Bytes) (os : List Opt)
    (hk : (segments cmd).2[k]? = some (v, os)) :
    ∃ s, r[k]? = some s ∧ s.rand = (if (lastOf getRand (if (segments cmd).2.length = 1 then cmd else os)).isSome
      then lastOf getRand cmd else none) := by
  unfold commandLine at h
  dsimp only at h
  obtain ⟨h1, h2⟩ := localServices_index U _ _ _ _ h
  obtain ⟨-, hv, -⟩ := selected id n cmd k v os hk
  cases hl : (setAll { id := id } n cmd).loc[k]? with
  | none => rw [hl] at hv; cases hv
  | some l =>
    rw [hl] at hv
    simp only [Option.map_some, Option.some.injEq] at hv
    obtain ⟨s, hs, hls⟩ := h2 k l hl
    rw [Nat.zero_add, hv, localService_spec U id n cmd k v os hk] at hls
    cases hu : U v with
    | none => rw [hu] at hls; cases hls
    | some u =>
      rw [hu] at hls
      simp only [Option.map_some, Option.some.injEq] at hls
      exact ⟨s, hs, by rw [← hls]; rfl⟩

/-- C34, `-remoteTCPRandom`, as claimed, when all its occurrences have the same value. -/
theorem random_flag_partial (U : Bytes → Option URL) (id : Bytes) (n : Nat) (cmd : List Opt) (r : List Svc)
    (h : commandLine U id n cmd = some r) (b : Bool) (hall : ∀ x, Opt.rand x ∈ cmd → x = b)
    (k : Nat) (v : Bytes) (os : List Opt) (hk : (segments cmd).2[k]? = some (v, os)) :
    ∃ s, r[k]? = some s ∧ s.rand = lastOf getRand (if (segments cmd).2.length = 1 then cmd else os) := by
  have hsub : ∀ o ∈ os, o ∈ cmd := (segments_sub cmd).2 _ (List.mem_of_getElem? hk)
  obtain ⟨s, hs, hr⟩ := random_flag_actual U id n cmd r h k v os hk
  refine ⟨s, hs, ?_⟩
  rw [hr]
  have hval : ∀ (l : List Opt), (∀ o ∈ l, o ∈ cmd) → (lastOf getRand l).isSome = true → lastOf getRand l = some b := by
    intro l hl hsome
    unfold lastOf at hsome ⊢
    obtain ⟨x, hx⟩ := Option.isSome_iff_exists.1 hsome
    have hm := List.mem_of_getLast? hx
    obtain ⟨o, ho, hox⟩ := List.mem_filterMap.1 hm
    have : o = .rand x := by
      cases o <;> simp [getRand] at hox
      rw [hox]
    rw [hx, hall x (hl _ (this ▸ ho))]
  have hb : ∀ o ∈ (if (segments cmd).2.length = 1 then cmd else os), o ∈ cmd := by
    intro o ho
    by_cases h1 : (segments cmd).2.length = 1
    · rw [if_pos h1] at ho; exact ho
    · rw [if_neg h1] at ho; exact hsub o ho
  by_cases hsome : (lastOf getRand (if (segments cmd).2.length = 1 then cmd else os)).isSome = true
  · rw [if_pos hsome, hval _ hb hsome]
    apply hval cmd (fun o h => h)
    unfold lastOf at hsome ⊢
    rw [List.getLast?_isSome] at hsome ⊢
    intro e
    apply hsome
    rw [List.filterMap_eq_nil_iff] at e ⊢
    exact fun o ho => e o (hb o ho)
  · rw [if_neg hsome]
    simp at hsome
    exact hsome.symm


/-- A URL parser for the examples: `h…`, `s…`, `t…` are http, https and tcp. -/
def demoU (v : Bytes) : Option URL :=
  match v with
  | 104 :: r => some ⟨.http, r⟩
  | 115 :: r => some ⟨.https, r⟩
  | 116 :: r => some ⟨.tcp, r⟩
  | 111 :: r => some ⟨.other, r⟩
  | _ => none

/-- C34 is false of the code for `-remoteTCPRandom`: `-local tcp://a:1 -remoteTCPRandom=true -local tcp://b:2
-remoteTCPRandom=false -remoteTCPPort 7` gives the first service the value of the second, and the client
refuses to start although the first service asked for a random port. -/
theorem random_flag_wrong : ∃ cmd : List Opt,
    (segments cmd).2[0]? = some (ascii "ta:1", [.rand true]) ∧
    (∃ s r, commandLine demoU [] 0 cmd = some (s :: r) ∧ s.rand = some false) ∧
    parseServices demoU (setAll { id := [] } 0 cmd) = .err .noRemotePort := by
  refine ⟨[.loc (ascii "ta:1"), .rand true, .loc (ascii "tb:2"), .rand false, .port 7], by decide, ?_, by decide +kernel⟩
  exact ⟨_, _, rfl, by decide +kernel⟩

/-- Nonvacuity: three locals with interleaved options, one before the first local (ignored). -/
example : (commandLine demoU [] 5 [.port 1, .loc (ascii "ha"), .pre (ascii "x"), .loc (ascii "tb:2"), .port 7, .port 8,
    .loc (ascii "sc"), .timeout 3]).map (·.map (fun s => (s.pre, s.port, s.timeout)))
    = some [(ascii "x", 0, 0), ([], 8, 0), ([], 0, 3)] := by decide +kernel

/-! ## Acceptance -/

/-- The service is an HTTP or HTTPS service without a prefix: it takes the id of the client as prefix. -/
def WantsId (s : Svc) : Prop := s.pre = [] ∧ ∃ u, s.url = some u ∧ (u.scheme = .http ∨ u.scheme = .https)

instance (s : Svc) : Decidable (WantsId s) := by
  unfold WantsId
  cases h : s.url with
  | none => exact isFalse (by rintro ⟨-, u, h1, -⟩; cases h1)
  | some u =>
    exact decidable_of_iff (s.pre = [] ∧ (u.scheme = .http ∨ u.scheme = .https))
      ⟨fun h => ⟨h.1, u, rfl, h.2⟩, fun ⟨h1, u', h2, h3⟩ => ⟨h1, by cases h2; exact h3⟩⟩

/-- The effective prefix. -/
def effPre (id : Bytes) (s : Svc) : Bytes := if WantsId s then id else s.pre

/-- A service that the client can serve. -/
structure Valid (id : Bytes) (s : Svc) : Prop where
  url : ∃ u, s.url = some u ∧ u.scheme ≠ .other ∧
    (u.scheme = .tcp → portOf u.host ≠ [] ∧ (s.port ≠ 0 ∨ s.rand ≠ some false))
  pre : (effPre id s).length ≤ 200

/-- The URL with the default port of its scheme. -/
def fillUrl (u : URL) : URL :=
  match u.scheme with
  | .http => if u.host.contains 58 then u else { u with host := u.host ++ ascii ":80" }
  | .https => if u.host.contains 58 then u else { u with host := u.host ++ ascii ":443" }
  | _ => u

/-- The random flag: as given, otherwise set for a TCP service without remote port. -/
def fillRand (s : Svc) : Bool :=
  match s.rand with
  | some b => b
  | none => match s.url with
    | some u => u.scheme == .tcp && s.port == 0
    | none => false

/-- The service with its defaults filled in: a timeout of 120 s, a random remote port for TCP services without
port, the id as prefix of an HTTP service, the default port of the scheme. Nothing that was set changes
(`defaults_only_unset`). -/
def filled (id : Bytes) (s : Svc) : Svc where
  url := s.url.map fillUrl
  pre := effPre id s
  port := s.port
  rand := some (fillRand s)
  timeout := if s.timeout = 0 then 120000000000 else s.timeout
  useLocal := s.useLocal

def Res.isOk {α} : Res α → Bool
  | .ok _ => true
  | _ => false

theorem Res.of_isOk {α} {r : Res α} (h : r.isOk = true) : ∃ a, r = .ok a := by
  cases r with
  | ok a => exact ⟨a, rfl⟩
  | err e => cases h
  | panic => cases h

theorem finish_ok (id : Bytes) (used : Bool) (s : Svc) :
    (∀ s' used', finish id used s = .ok (s', used') → Valid id s ∧ (WantsId s → used = false) ∧ s' = filled id s ∧
      used' = (used || decide (WantsId s))) ∧
    (Valid id s → (WantsId s → used = false) → (finish id used s).isOk = true) := by
  obtain ⟨url, pre, port, rand, timeout, useLocal⟩ := s
  cases url with
  | none =>
    refine ⟨by intro s' u' h; simp [finish] at h, ?_⟩
    intro h
    obtain ⟨u, hu, -⟩ := h.url
    cases hu
  | some u =>
    obtain ⟨scheme, host⟩ := u
    have hw : ∀ sc, WantsId ⟨some ⟨sc, host⟩, pre, port, rand, timeout, useLocal⟩ ↔
        pre = [] ∧ (sc = .http ∨ sc = .https) := by
      intro sc
      constructor
      · rintro ⟨h1, u, h2, h3⟩; cases h2; exact ⟨h1, h3⟩
      · rintro ⟨h1, h2⟩; exact ⟨h1, _, rfl, h2⟩
    have hs120 : 120 * secondsNs = 120000000000 := rfl
    by_cases hp : pre = []
    · subst hp
      cases scheme with
      | other =>
        refine ⟨by intro s' u' h; simp [finish] at h, ?_⟩
        intro h
        obtain ⟨u, hu, hne, -⟩ := h.url
        cases hu
        exact absurd rfl hne
      | tcp =>
        have hnw := hw .tcp
        simp at hnw
        constructor
        · intro s' u' h
          simp [finish] at h
          by_cases hpo : portOf host = []
          · simp [hpo] at h
          · simp only [hpo, if_false] at h
            by_cases hr : port = 0 ∧ rand.getD (port == 0) = false
            · rw [if_pos hr] at h; cases h
            · rw [if_neg hr] at h
              simp only [Res.ok.injEq, Prod.mk.injEq] at h
              obtain ⟨h1, h2⟩ := h
              refine ⟨⟨⟨_, rfl, by simp, fun _ => ⟨hpo, ?_⟩⟩, by simp [effPre, hnw]⟩, fun h => absurd h hnw, ?_, ?_⟩
              · by_cases h0 : port = 0
                · right
                  intro e
                  subst h0
                  dsimp only at e
                  exact hr ⟨rfl, by rw [e]; rfl⟩
                · exact Or.inl h0
              · rw [← h1]
                simp [filled, fillUrl, fillRand, effPre, hnw, hs120]
                cases rand <;> simp
              · rw [← h2]; simp [hnw]
        · intro h _
          obtain ⟨u, hu, hne, ht⟩ := h.url
          cases hu
          obtain ⟨h1, h2⟩ := ht rfl
          · simp only [finish]
            simp
            rw [if_neg h1, if_neg]
            · rfl
            rintro ⟨h3, h4⟩
            rcases h2 with h2 | h2
            · exact h2 h3
            · cases rand with
              | none => simp [h3] at h4
              | some b => simp at h4 h2; rw [h4] at h2; cases h2
      | http | https =>
        have hH := (hw .http).2 ⟨rfl, Or.inl rfl⟩
        have hS := (hw .https).2 ⟨rfl, Or.inr rfl⟩
        cases used with
        | true =>
          refine ⟨by intro s' u' h; simp [finish] at h, ?_⟩
          intro _ h; exact absurd (h (by first | exact hH | exact hS)) (by simp)
        | false =>
          constructor
          · intro s' u' h
            simp [finish] at h
            by_cases hid : 0 < id.length ∧ (id = [] ∨ 200 < id.length)
            · rw [if_pos hid] at h; cases h
            · rw [if_neg hid] at h
              simp only [Res.ok.injEq, Prod.mk.injEq] at h
              obtain ⟨h1, h2⟩ := h
              refine ⟨⟨⟨_, rfl, by simp, by simp⟩, ?_⟩, fun _ => rfl, ?_, ?_⟩
              · simp only [effPre, hH, hS, if_true]
                by_cases h0 : id = []
                · rw [h0]; simp
                · rcases Nat.lt_or_ge 200 id.length with h3 | h3
                  · exact absurd ⟨by omega, Or.inr h3⟩ hid
                  · exact h3
              · rw [← h1]
                simp [filled, fillUrl, fillRand, effPre, hH, hS, hs120]
                cases rand <;> simp
              · rw [← h2]; simp [hH, hS]
          · intro h _
            have := h.pre
            simp only [effPre, hH, hS, if_true] at this
            · simp only [finish]
              simp
              rw [if_neg]
              · rfl
              rintro ⟨h1, h2⟩
              rcases h2 with h2 | h2
              · rw [h2] at h1; simp at h1
              · omega
    · have hpe : pre.isEmpty = false := by cases pre <;> simp_all
      have hnw : ∀ sc, ¬ WantsId ⟨some ⟨sc, host⟩, pre, port, rand, timeout, useLocal⟩ := by
        intro sc h; exact hp ((hw sc).1 h).1
      cases scheme with
      | other =>
        refine ⟨by intro s' u' h; simp [finish, hpe] at h, ?_⟩
        intro h
        obtain ⟨u, hu, hne, -⟩ := h.url
        cases hu
        exact absurd rfl hne
      | tcp =>
        constructor
        · intro s' u' h
          simp [finish, hpe] at h
          by_cases hpo : portOf host = []
          · simp [hpo] at h
          · simp only [hpo, if_false] at h
            by_cases hr : port = 0 ∧ rand.getD (port == 0) = false
            · rw [if_pos hr] at h; cases h
            · rw [if_neg hr] at h
              by_cases hle : 0 < pre.length ∧ (pre = [] ∨ 200 < pre.length)
              · rw [if_pos hle] at h; cases h
              · rw [if_neg hle] at h
                simp only [Res.ok.injEq, Prod.mk.injEq] at h
                obtain ⟨h1, h2⟩ := h
                refine ⟨⟨⟨_, rfl, by simp, fun _ => ⟨hpo, ?_⟩⟩, ?_⟩, fun h => absurd h (hnw _), ?_, ?_⟩
                · by_cases h0 : port = 0
                  · right
                    intro e
                    subst h0
                    dsimp only at e
                    exact hr ⟨rfl, by rw [e]; rfl⟩
                  · exact Or.inl h0
                · simp only [effPre, hnw, if_false]
                  rcases Nat.lt_or_ge 200 pre.length with h3 | h3
                  · exact absurd ⟨by omega, Or.inr h3⟩ hle
                  · exact h3
                · rw [← h1]
                  simp [filled, fillUrl, fillRand, effPre, hnw, hs120]
                  cases rand <;> simp
                · rw [← h2]; simp [hnw]
        · intro h _
          obtain ⟨u, hu, hne, ht⟩ := h.url
          cases hu
          obtain ⟨h1, h2⟩ := ht rfl
          have h5 := h.pre
          simp only [effPre, hnw, if_false] at h5
          · simp only [finish]
            simp [hpe]
            rw [if_neg h1, if_neg, if_neg]
            · rfl
            · rintro ⟨h6, h7⟩
              rcases h7 with h7 | h7
              · exact hp h7
              · omega
            rintro ⟨h3, h4⟩
            rcases h2 with h2 | h2
            · exact h2 h3
            · cases rand with
              | none => simp [h3] at h4
              | some b => simp at h4 h2; rw [h4] at h2; cases h2
      | http | https =>
        constructor
        · intro s' u' h
          simp [finish, hpe] at h
          by_cases hle : 0 < pre.length ∧ (pre = [] ∨ 200 < pre.length)
          · rw [if_pos hle] at h; cases h
          · rw [if_neg hle] at h
            simp only [Res.ok.injEq, Prod.mk.injEq] at h
            obtain ⟨h1, h2⟩ := h
            refine ⟨⟨⟨_, rfl, by simp, by simp⟩, ?_⟩, fun h => absurd h (hnw _), ?_, ?_⟩
            · simp only [effPre, hnw, if_false]
              rcases Nat.lt_or_ge 200 pre.length with h3 | h3
              · exact absurd ⟨by omega, Or.inr h3⟩ hle
              · exact h3
            · rw [← h1]
              simp [filled, fillUrl, fillRand, effPre, hnw, hs120]
              cases rand <;> simp
            · rw [← h2]; simp [hnw]
        · intro h _
          have h5 := h.pre
          simp only [effPre, hnw, if_false] at h5
          · simp only [finish]
            simp [hpe]
            rw [if_neg]
            · rfl
            rintro ⟨h6, h7⟩
            rcases h7 with h7 | h7
            · exact hp h7
            · omega

theorem finishAll_ok (id : Bytes) : ∀ (raw : List Svc) (used : Bool) (r : List Svc),
    finishAll id used raw = .ok r ↔
      (∀ s ∈ raw, Valid id s) ∧ (used = true → ∀ s ∈ raw, ¬ WantsId s) ∧
      raw.Pairwise (fun a b => ¬ (WantsId a ∧ WantsId b)) ∧ r = raw.map (filled id) := by
  intro raw
  induction raw with
  | nil =>
    intro used r
    simp only [finishAll, Res.ok.injEq, List.not_mem_nil, false_imp_iff, implies_true, List.Pairwise.nil, List.map_nil,
      true_and]
    exact eq_comm
  | cons s ss ih =>
    intro used r
    obtain ⟨hA, hB⟩ := finish_ok id used s
    unfold finishAll
    constructor
    · intro h
      cases hf : finish id used s with
      | err e => rw [hf] at h; cases h
      | panic => rw [hf] at h; cases h
      | ok p =>
        obtain ⟨s', used'⟩ := p
        obtain ⟨h1, h2, h3, h4⟩ := hA s' used' hf
        rw [hf] at h
        dsimp only at h
        cases hr : finishAll id used' ss with
        | err e => rw [hr] at h; cases h
        | panic => rw [hr] at h; cases h
        | ok r' =>
          rw [hr] at h
          cases h
          obtain ⟨h5, h6, h7, h8⟩ := (ih used' r').1 hr
          refine ⟨?_, ?_, ?_, by rw [h3, h8]; rfl⟩
          · intro t ht
            cases ht with
            | head => exact h1
            | tail _ h => exact h5 t h
          · intro hu t ht
            cases ht with
            | head => intro hw; rw [h2 hw] at hu; cases hu
            | tail _ h => exact h6 (by rw [h4, hu]; rfl) t h
          · refine List.Pairwise.cons ?_ h7
            rintro t ht ⟨hw, hw'⟩
            exact h6 (by rw [h4]; simp [hw]) t ht hw'
    · rintro ⟨h1, h2, h3, h4⟩
      obtain ⟨h5, h6⟩ := List.pairwise_cons.1 h3
      obtain ⟨⟨s', used'⟩, hf⟩ := Res.of_isOk (hB (h1 s List.mem_cons_self) (by
        intro hw
        cases used with
        | false => rfl
        | true => exact absurd hw (h2 rfl s List.mem_cons_self)))
      obtain ⟨-, -, h7, h8⟩ := hA s' used' hf
      rw [hf]
      dsimp only
      have := (ih used' (ss.map (filled id))).2 ⟨fun t ht => h1 t (List.mem_cons_of_mem _ ht), ?_, h6, rfl⟩
      · rw [this]
        dsimp only
        rw [h4, h7]; rfl
      · intro hu t ht hw
        rw [h8] at hu
        simp only [Bool.or_eq_true, decide_eq_true_eq] at hu
        rcases hu with hu | hu
        · exact h2 hu t (List.mem_cons_of_mem _ ht) hw
        · exact h5 t ht ⟨hu, hw⟩

theorem dup_false : ∀ (r : List Svc), dup r = false ↔ r.Pairwise (fun a b => a.pre ≠ [] → a.pre ≠ b.pre) := by
  intro r
  induction r with
  | nil => simp [dup]
  | cons s ss ih =>
    simp only [dup, Bool.or_eq_false_iff, ih, List.pairwise_cons]
    constructor
    · rintro ⟨h1, h2⟩
      refine ⟨?_, h2⟩
      intro t ht hne e
      have h3 : (!s.pre.isEmpty) = true := by cases hp : s.pre <;> simp_all
      rw [h3, Bool.true_and] at h1
      have := (List.any_eq_false.1 h1) t ht
      simp [e] at this
    · rintro ⟨h1, h2⟩
      refine ⟨?_, h2⟩
      cases hp : s.pre with
      | nil => simp
      | cons a b =>
        rw [List.isEmpty_cons, Bool.not_false, Bool.true_and]
        rw [List.any_eq_false]
        intro t ht
        have := h1 t ht (by rw [hp]; simp)
        rw [hp] at this
        simpa using this

/-- C34: the configuration is accepted exactly when every service (of the command line and of the file) has a
local URL of a known scheme, every TCP service has a local port and a remote port or the random flag (or no flag
at all), all prefixes are at most 200 bytes, at most one HTTP service has no prefix (and gets the id), and no two
services have the same prefix. The result is then every service with its defaults filled in, in order. -/
theorem accepted_iff (U : Bytes → Option URL) (c : Cfg) (r : List Svc) :
    parseServices U c = .ok r ↔ ∃ ls, localServices U c 0 c.loc = some ls ∧
      (∀ s ∈ ls ++ c.services, Valid c.id s) ∧
      (ls ++ c.services).Pairwise (fun a b => ¬ (WantsId a ∧ WantsId b)) ∧
      (ls ++ c.services).Pairwise (fun a b => effPre c.id a ≠ [] → effPre c.id a ≠ effPre c.id b) ∧
      r = (ls ++ c.services).map (filled c.id) := by
  unfold parseServices
  cases hl : localServices U c 0 c.loc with
  | none => simp
  | some ls =>
    dsimp only
    have key := finishAll_ok c.id (ls ++ c.services) false
    have hpw : ∀ raw : List Svc, (raw.map (filled c.id)).Pairwise (fun a b => a.pre ≠ [] → a.pre ≠ b.pre) ↔
        raw.Pairwise (fun a b => effPre c.id a ≠ [] → effPre c.id a ≠ effPre c.id b) := by
      intro raw
      rw [List.pairwise_map]
      rfl
    constructor
    · intro h
      cases hf : finishAll c.id false (ls ++ c.services) with
      | err e => rw [hf] at h; cases h
      | panic => rw [hf] at h; cases h
      | ok r' =>
        rw [hf] at h
        dsimp only at h
        obtain ⟨h1, -, h2, h3⟩ := (key r').1 hf
        by_cases hd : dup r' = true
        · rw [if_pos hd] at h; cases h
        · rw [if_neg hd] at h
          cases h
          refine ⟨ls, rfl, h1, h2, ?_, h3⟩
          rw [← hpw, ← h3, ← dup_false]
          simpa using hd
    · rintro ⟨ls', e, h1, h2, h3, h4⟩
      cases e
      rw [(key r).2 ⟨h1, by simp, h2, h4⟩]
      dsimp only
      rw [if_neg]
      rw [← hpw, ← h4, ← dup_false] at h3
      simp [h3]

/-- C34, what a user sees of an accepted configuration. -/
theorem accepted_services (U : Bytes → Option URL) (c : Cfg) (r : List Svc) (h : parseServices U c = .ok r) :
    (∀ s ∈ r, s.pre.length ≤ 200 ∧ s.timeout ≠ 0 ∧ ∃ u b, s.url = some u ∧ s.rand = some b ∧
      ((u.scheme = .http ∨ u.scheme = .https) → (58 : UInt8) ∈ u.host) ∧
      (u.scheme = .tcp → portOf u.host ≠ [] ∧ (s.port ≠ 0 ∨ b = true)) ∧ u.scheme ≠ .other) ∧
    r.Pairwise (fun a b => a.pre ≠ [] → a.pre ≠ b.pre) := by
  obtain ⟨ls, hl, h1, h2, h3, h4⟩ := (accepted_iff U c r).1 h
  constructor
  · intro s hs
    rw [h4] at hs
    obtain ⟨t, ht, e⟩ := List.mem_map.1 hs
    subst e
    have hv := h1 t ht
    obtain ⟨u, hu, hne, htcp⟩ := hv.url
    refine ⟨hv.pre, ?_, ?_⟩
    · show (if t.timeout = 0 then 120000000000 else t.timeout) ≠ 0
      split <;> omega
    · obtain ⟨sc, host⟩ := u
      refine ⟨fillUrl ⟨sc, host⟩, fillRand t, by simp only [filled, hu, Option.map_some], by simp only [filled], ?_, ?_, ?_⟩
      all_goals unfold fillUrl
      · intro hsc
        cases sc with
        | http =>
          by_cases hc : host.contains (58 : UInt8) = true
          · simp only [hc, if_true]; simpa using hc
          · simp only [hc]; simp [ascii]
        | https =>
          by_cases hc : host.contains (58 : UInt8) = true
          · simp only [hc, if_true]; simpa using hc
          · simp only [hc]; simp [ascii]
        | tcp => simp at hsc
        | other => simp at hsc
      · intro hsc
        cases sc with
        | tcp =>
          obtain ⟨h5, h6⟩ := htcp rfl
          refine ⟨h5, ?_⟩
          simp only [fillRand, hu, filled]
          rcases h6 with h6 | h6
          · exact Or.inl h6
          · cases hr : t.rand with
            | none =>
              by_cases h0 : t.port = 0
              · right; simp [h0]
              · exact Or.inl h0
            | some b => rw [hr] at h6; right; cases b <;> simp_all
        | http => exfalso; dsimp only at hsc; split at hsc <;> cases hsc
        | https => exfalso; dsimp only at hsc; split at hsc <;> cases hsc
        | other => exact absurd rfl hne
      · cases sc with
        | http => dsimp only; split <;> simp
        | https => dsimp only; split <;> simp
        | tcp => simp
        | other => exact absurd rfl hne
  · rw [h4, List.pairwise_map]
    exact h3

/-- Defaults replace only what was not set. -/
theorem defaults_only_unset (id : Bytes) (s : Svc) :
    (s.timeout ≠ 0 → (filled id s).timeout = s.timeout) ∧ (∀ b, s.rand = some b → (filled id s).rand = some b) ∧
    (s.pre ≠ [] → (filled id s).pre = s.pre) ∧ (filled id s).port = s.port ∧ (filled id s).useLocal = s.useLocal ∧
    (∀ u, s.url = some u → (58 : UInt8) ∈ u.host → (filled id s).url = some u) := by
  refine ⟨?_, ?_, ?_, rfl, rfl, ?_⟩
  · intro h; simp [filled, h]
  · intro b h; simp [filled, fillRand, h]
  · intro h
    have : ¬ WantsId s := fun hw => h hw.1
    simp [filled, fillUrl, fillRand, effPre, this]
  · intro u hu hc
    have : u.host.contains 58 = true := by simpa using hc
    simp only [filled, hu, Option.map_some, fillUrl, this, if_true]
    obtain ⟨sc, host⟩ := u
    cases sc <;> rfl

/-- A service of the file without `local` crashes the client instead of being reported (libcs/client/client.go:822-831 sets
the error and goes on to use the URL). -/
theorem missing_local_panics (U : Bytes → Option URL) (c : Cfg) (s : Svc) (rest : List Svc) (hl : c.loc = [])
    (hs : c.services = s :: rest) (hu : s.url = none) : parseServices U c = .panic := by
  unfold parseServices
  rw [hl]
  simp only [localServices, List.nil_append, hs, finishAll, finish, hu]

/-- Nonvacuity: an accepted configuration with a defaulted prefix, a random TCP port and a file service. -/
example : parseServices demoU { setAll { id := ascii "me" } 0 [.loc (ascii "ha"), .loc (ascii "tb:22")] with
    services := [{ url := some ⟨.https, ascii "c:8443"⟩, pre := ascii "x", rand := some false, timeout := 5 }] } = .ok
    [{ url := some ⟨.http, ascii "a:80"⟩, pre := ascii "me", rand := some false, timeout := 120000000000 },
     { url := some ⟨.tcp, ascii "b:22"⟩, rand := some true, timeout := 120000000000 },
     { url := some ⟨.https, ascii "c:8443"⟩, pre := ascii "x", rand := some false, timeout := 5 }] := by decide +kernel

end Verif.Config.Services
