import Verif.Config.Services
/-!
# C36, C49, C50: defaults, precedence, and configurations saved by the web UI

Model of `MergeConfig` (libcs/client/client.go:108-120, libcs/server/server.go:1116-1128), `ParseFlags` and
`copyFlagsValue` (libcs/config/config.go:37-62, 97-133), `New` (libcs/client/client.go:56-66, libcs/server/server.go:86-107), and of the web
services `GetConfigFromFile`, `SaveConfigToFile`, `InheritImmutableConfigFields`, `InheritConfig`, `GetMergedConfig`,
`SeparateConfig` (libcs/client/web/service/service.go:193-298, libcs/server/web/service/service.go:189-309) and the
handler `SaveConfigToFile` (libcs/client/web/api/api.go:160-187, libcs/server/web/api/api.go:159-186).

The options are the fields of a Go struct visited by reflection; here an option has a number and its value is taken
from any type with a zero. The YAML and JSON libraries are trusted to give back a nonzero value unchanged.
-/
set_option linter.unusedSimpArgs false
set_option linter.unusedVariables false
namespace Verif.Config.Merge
open Verif
open Verif.Config.Services (Svc Cfg URL Scheme Res finish finishAll dup parseServices localServices)

/-- What the struct tags and the code say about one field of `Options`. -/
structure Field (V : Type) where
  /-- `Kind() == reflect.Slice` -/
  slice : Bool
  /-- has a YAML name (`yaml:"-"` otherwise); all of these are `omitempty` -/
  persist : Bool
  /-- has a JSON name (`json:"-"` otherwise) -/
  json : Bool
  /-- copied by `InheritImmutableConfigFields` -/
  immut : Bool
  /-- value in `DefaultConfig()` -/
  dflt : V

variable {V : Type} [DecidableEq V]

/-- libcs/client/client.go:114-118, libcs/server/server.go:1122-1126; also libcs/client/web/service/service.go:270-275. -/
def mergeF (zero : V) (f : Field V) (v : V) : V :=
  if v = zero ∧ f.slice = false ∧ f.dflt ≠ zero then f.dflt else v

/-- libcs/client/web/service/service.go:284-292. -/
def separateF (zero : V) (f : Field V) (v : V) : V :=
  if f.slice then v else if v = f.dflt then zero else v

/-- One field through the YAML encoder: left out if it has no YAML name or is zero (`omitempty`). -/
def encF (zero : V) (f : Field V) (v : V) : Option V := if f.persist = true ∧ v ≠ zero then some v else none

/-- One field through the YAML decoder, decoding into `base`. A file could name a field without a YAML name, but the
decoder does not know it. -/
def decF (f : Field V) (base : V) (o : Option V) : V := if f.persist then o.getD base else base

abbrev Opts (V : Type) := Nat → V
/-- What a file says about every option. -/
abbrev File (V : Type) := Nat → Option V

/-- libcs/config/config.go:97-133 `copyFlagsValue`: options given on the command line. -/
def flagsF (v : V) (flag : Option V) : V := flag.getD v

/-- Reading the file named by `-config`: nothing given, unreadable (libcs/config/config.go:79-82, 90-94), or decoded. -/
inductive Read (V : Type) where
  | noFile
  | error
  | ok (f : File V)

/-- libcs/config/config.go:37-62 `ParseFlags`: the file over the defaults, then the flags; after an error the flags are not copied.
The decoder may have filled in part of the options before it failed: `junk`. -/
def parseFlags (sch : Nat → Field V) (r : Read V) (junk : File V) (flags : File V) : Opts V × Bool :=
  match r with
  | .noFile => (fun i => flagsF (sch i).dflt (flags i), true)
  | .error => (fun i => decF (sch i) (sch i).dflt (junk i), false)
  | .ok f => (fun i => flagsF (decF (sch i) (sch i).dflt (f i)) (flags i), true)

/-- libcs/server/server.go:86-107 `New`: an error of `ParseFlags` is returned. -/
def serverStart (zero : V) (sch : Nat → Field V) (r : Read V) (junk flags : File V) : Option (Opts V) :=
  match parseFlags sch r junk flags with
  | (o, true) => some (fun i => mergeF zero (sch i) (o i))
  | (_, false) => none

/-- libcs/client/client.go:56-66 `New`: the error of `ParseFlags` is overwritten by the (nil) error of `MergeConfig`. -/
def clientStart (zero : V) (sch : Nat → Field V) (r : Read V) (junk flags : File V) : Option (Opts V) :=
  let (o, _) := parseFlags sch r junk flags
  some (fun i => mergeF zero (sch i) (o i))

/-! ### The web services -/

abbrev Path := Nat

/-- The file system as far as configuration files go, the running configuration, the path it was started with
(`Options.Config`, `none` if empty) and the default path. -/
structure World (V : Type) where
  files : Path → Option (File V)
  running : Opts V
  runPath : Option Path
  defPath : Path

/-- A configuration in memory: the options and the `Config` field, which has no YAML name. -/
structure Conf (V : Type) where
  path : Option Path
  opts : Opts V

/-- libcs/client/web/service/service.go:193-205 `GetConfigFromFile`: decodes into a zero `Config`; `Options.Config` stays empty. -/
def getFromFile (zero : V) (sch : Nat → Field V) (w : World V) : Option (Conf V) :=
  match w.runPath with
  | none => none
  | some p =>
    match w.files p with
    | none => none
    | some f => some { path := none, opts := fun i => decF (sch i) zero (f i) }

/-- libcs/client/web/service/service.go:261-277 `GetMergedConfig`. -/
def getMerged (zero : V) (sch : Nat → Field V) (w : World V) : Option (Conf V) :=
  (getFromFile zero sch w).map (fun c => { c with opts := fun i => mergeF zero (sch i) (c.opts i) })

/-- libcs/client/web/service/service.go:249-260 `InheritConfig`: from the file, else a copy of the running configuration. -/
def inherit (zero : V) (sch : Nat → Field V) (w : World V) : Conf V :=
  match getMerged zero sch w with
  | some c => c
  | none => { path := w.runPath, opts := w.running }

/-- libcs/client/web/service/service.go:279-298 `SeparateConfig`, then 209-230 `SaveConfigToFile`. -/
def save (zero : V) (sch : Nat → Field V) (w : World V) (c : Conf V) : World V :=
  let p := c.path.getD w.defPath
  { w with files := fun q => if q = p then some (fun i => encF zero (sch i) (separateF zero (sch i) (c.opts i))) else w.files q }

/-- libcs/client/web/api/api.go:160-187, the handler: a zero configuration, the immutable fields of the old one, then the posted JSON. -/
def post (zero : V) (sch : Nat → Field V) (w : World V) (js : File V) : Conf V :=
  let old := inherit zero sch w
  { path := old.path
    opts := fun i =>
      let base := if (sch i).immut then old.opts i else zero
      if (sch i).json then (js i).getD base else base }

def saveHandler (zero : V) (sch : Nat → Field V) (w : World V) (js : File V) : World V :=
  save zero sch w (post zero sch w js)

/-- libcs/client/web/api/api.go:144-156, what the UI then shows: the merged file, else the running configuration. -/
def shown (zero : V) (sch : Nat → Field V) (w : World V) : Opts V :=
  match getMerged zero sch w with
  | some c => c.opts
  | none => w.running

/-! ### libcs/util/path.go:15-29 `WriteYamlToFile`, with crashes -/

/-- The contents of the file at every point where the process may stop: before `os.Create`, after it (which truncates),
and while the bytes are being written. -/
def crashPoints (old : Option Bytes) (new : Bytes) : Option Bytes → Prop :=
  fun c => c = old ∨ ∃ n, n ≤ new.length ∧ c = some (new.take n)

/-! ## Theorems: precedence (C49) -/

/-- C49: on a server that starts, an option given on the command line with a nonzero value has that value.
Missing from the claim: zero values (`explicit_zero_lost`) and clients with an unreadable file (`client_ignores_bad_file`), where it is false. -/
theorem flag_wins_partial (zero : V) (sch : Nat → Field V) (r : Read V) (junk flags : File V) (o : Opts V) (i : Nat) (v : V)
    (h : serverStart zero sch r junk flags = some o) (hf : flags i = some v) (hv : v ≠ zero) : o i = v := by
  unfold serverStart parseFlags at h
  cases r with
  | noFile => simp only [Option.some.injEq] at h; subst h; simp [flagsF, hf, mergeF, hv]
  | error => simp at h
  | ok f => simp only [Option.some.injEq] at h; subst h; simp [flagsF, hf, mergeF, hv]

/-- C49: an option not given on the command line but in the file, with a nonzero value, has the value of the file. -/
theorem file_next (zero : V) (sch : Nat → Field V) (f : File V) (junk flags : File V) (o : Opts V) (i : Nat) (v : V)
    (h : serverStart zero sch (.ok f) junk flags = some o) (hf : flags i = none) (hp : (sch i).persist = true)
    (hv : f i = some v) (hz : v ≠ zero) : o i = v := by
  simp only [serverStart, parseFlags, Option.some.injEq] at h
  subst h
  simp [flagsF, hf, decF, hp, hv, mergeF, hz]

/-- C49: an option given nowhere has its default. -/
theorem default_last (zero : V) (sch : Nat → Field V) (f junk flags : File V) (o : Opts V) (i : Nat)
    (h : serverStart zero sch (.ok f) junk flags = some o) (hf : flags i = none) (hv : f i = none) : o i = (sch i).dflt := by
  simp only [serverStart, parseFlags, Option.some.injEq] at h
  subst h
  simp only [flagsF, hf, decF, hv, mergeF, Option.getD_none, ite_self]

/-- C49 is false for explicit zeros: an option set to zero, in the file or on the command line, gets its default —
`-timeout 0`, `-reconnectTimes 0`, `-logFileMaxCount 0`, `remoteTimeout: 0s` have no effect. -/
theorem explicit_zero_lost (zero : V) (sch : Nat → Field V) (r : Read V) (junk flags : File V) (o : Opts V) (i : Nat)
    (h : serverStart zero sch r junk flags = some o) (hs : (sch i).slice = false) (hd : (sch i).dflt ≠ zero)
    (hf : flags i = some zero) : o i = (sch i).dflt ∧ o i ≠ zero := by
  unfold serverStart parseFlags at h
  cases r with
  | noFile => simp only [Option.some.injEq] at h; subst h; simp [flagsF, hf, mergeF, hs, hd]
  | error => simp at h
  | ok f => simp only [Option.some.injEq] at h; subst h; simp [flagsF, hf, mergeF, hs, hd]

/-- C49: a server with an unreadable configuration file does not start. -/
theorem server_refuses_bad_file (zero : V) (sch : Nat → Field V) (junk flags : File V) :
    serverStart zero sch .error junk flags = none := rfl

/-- … but a client does, and ignores its command line. -/
theorem client_ignores_bad_file (zero : V) (sch : Nat → Field V) (flags : File V) :
    ∃ o, clientStart zero sch .error (fun _ => none) flags = some o ∧ ∀ i, o i = (sch i).dflt := by
  refine ⟨_, rfl, ?_⟩
  intro i
  simp only [parseFlags, decF, mergeF, Option.getD_none, ite_self]

/-- Whenever its file can be read, a client starts with what a server would. -/
theorem client_start_eq (zero : V) (sch : Nat → Field V) (r : Read V) (junk flags : File V) (o : Opts V)
    (h : serverStart zero sch r junk flags = some o) : clientStart zero sch r junk flags = some o := by
  unfold serverStart at h
  unfold clientStart
  generalize hp : parseFlags sch r junk flags = p at h ⊢
  obtain ⟨o', b⟩ := p
  cases b with
  | true => simpa using h
  | false => simp at h

/-! ## Theorems: saving (C36) -/

theorem merge_idem (zero : V) (f : Field V) (v : V) : mergeF zero f (mergeF zero f v) = mergeF zero f v := by
  unfold mergeF
  by_cases h : v = zero ∧ f.slice = false ∧ f.dflt ≠ zero
  · rw [if_pos h]; simp [h.2.2]
  · rw [if_neg h, if_neg h]

/-- One field, saved and loaded, has its merged value. -/
theorem field_roundtrip (zero : V) (f : Field V) (v : V) (hp : f.persist = true) :
    mergeF zero f (decF f zero (encF zero f (separateF zero f v))) = mergeF zero f v := by
  unfold decF encF separateF mergeF
  rw [if_pos hp]
  by_cases hs : f.slice = true
  · simp only [hs, if_true, hp, true_and]
    by_cases hz : v = zero <;> simp [hz]
  · have hs' : f.slice = false := by simpa using hs
    simp only [hs', hp, true_and, Bool.false_eq_true, if_false]
    by_cases hd : v = f.dflt
    · subst hd
      by_cases hz : f.dflt = zero <;> simp [hz]
    · by_cases hz : v = zero
      · subst hz; simp [hd]
      · simp [hd, hz]

/-- What a start-up does with a saved field: the same, if no default is a nonempty slice. -/
theorem field_restart (zero : V) (f : Field V) (v : V) (hp : f.persist = true) (hs : f.slice = true → f.dflt = zero) :
    mergeF zero f (decF f f.dflt (encF zero f (separateF zero f v))) = mergeF zero f v := by
  rw [← field_roundtrip zero f v hp]
  unfold decF encF
  rw [if_pos hp, if_pos hp]
  by_cases hz : separateF zero f v = zero
  · simp only [hz, ne_eq, not_true_eq_false, and_false, if_false, Option.getD_none]
    unfold mergeF
    by_cases hsl : f.slice = true
    · rw [hs hsl]
    · have hsl' : f.slice = false := by simpa using hsl
      by_cases hd : f.dflt = zero
      · simp [hd]
      · simp [hd, hsl']
  · simp [hp, hz]

/-- C36, for every configuration: what is loaded back from a saved file, with the defaults merged in, is the saved
configuration with the defaults merged in; so a merged configuration is read back exactly. -/
theorem saved_reads_back (zero : V) (sch : Nat → Field V) (w : World V) (c : Conf V) (p : Path)
    (hc : c.path.getD w.defPath = p) (hr : w.runPath = some p) :
    ∃ c', getMerged zero sch (save zero sch w c) = some c' ∧
      ∀ i, (sch i).persist = true → c'.opts i = mergeF zero (sch i) (c.opts i) ∧
        (c.opts i = mergeF zero (sch i) (c.opts i) → c'.opts i = c.opts i) := by
  refine ⟨_, by simp [getMerged, getFromFile, save, hr, hc]; rfl, ?_⟩
  intro i hp
  have := field_roundtrip zero (sch i) (c.opts i) hp
  exact ⟨this, fun h => this.trans h.symm⟩

/-- C36: a restart (without flags) on the saved file runs with the merged configuration. -/
theorem saved_restarts (zero : V) (sch : Nat → Field V) (w : World V) (c : Conf V) (p : Path) (junk : File V)
    (hs : ∀ i, (sch i).slice = true → (sch i).dflt = zero) (hc : c.path.getD w.defPath = p) :
    ∃ f, (save zero sch w c).files p = some f ∧ ∃ o, serverStart zero sch (.ok f) junk (fun _ => none) = some o ∧
      ∀ i, (sch i).persist = true → o i = mergeF zero (sch i) (c.opts i) := by
  refine ⟨_, by simp [save, hc]; rfl, _, rfl, ?_⟩
  intro i hp
  exact field_restart zero (sch i) (c.opts i) hp (hs i)

/-- C36: posted values of persisted options are shown and used afterwards — if the file saved is the one the program
was started with: always when no file was there yet, or when that is the default file. Options that JSON does not
carry and that are copied (administrator, password, signing key, certificate files) keep their values. -/
theorem posted_reads_back_partial (zero : V) (sch : Nat → Field V) (w : World V) (js : File V) (p : Path)
    (hr : w.runPath = some p) (hp : w.files p = none ∨ p = w.defPath) (i : Nat) (hpi : (sch i).persist = true) :
    (∀ v, (sch i).json = true → js i = some v → v ≠ zero →
      shown zero sch (saveHandler zero sch w js) i = v) ∧
    ((sch i).json = false → (sch i).immut = true →
      shown zero sch (saveHandler zero sch w js) i = mergeF zero (sch i) ((inherit zero sch w).opts i)) := by
  have hpath : (post zero sch w js).path.getD w.defPath = p := by
    unfold post inherit getMerged getFromFile
    rw [hr]
    dsimp only
    cases hf : w.files p with
    | none => rfl
    | some f =>
      rcases hp with h | h
      · rw [hf] at h; cases h
      · exact h.symm
  obtain ⟨c', h1, h2⟩ := saved_reads_back zero sch w (post zero sch w js) p hpath hr
  have h3 : shown zero sch (saveHandler zero sch w js) i = mergeF zero (sch i) ((post zero sch w js).opts i) := by
    unfold shown saveHandler
    rw [h1]
    exact (h2 i hpi).1
  rw [h3]
  constructor
  · intro v hj hv hz
    simp [post, hj, hv, mergeF, hz]
  · intro hj hm
    simp [post, hj, hm]

/-- Otherwise C36 is false: started with another file that exists, saving writes the default file; the file the
program uses stays as it was, and the UI goes on showing the old values. -/
theorem saved_elsewhere (zero : V) (sch : Nat → Field V) (w : World V) (js : File V) (p : Path) (f : File V)
    (hr : w.runPath = some p) (hf : w.files p = some f) (hd : p ≠ w.defPath) :
    (saveHandler zero sch w js).files p = some f ∧ shown zero sch (saveHandler zero sch w js) = shown zero sch w ∧
    (saveHandler zero sch w js).files w.defPath ≠ none := by
  have hpath : (post zero sch w js).path = none := by
    simp [post, inherit, getMerged, getFromFile, hr, hf]
  have h1 : (saveHandler zero sch w js).files p = some f := by
    simp [saveHandler, save, hpath, hd, hf]
  refine ⟨h1, ?_, by simp [saveHandler, save, hpath]⟩
  have h2 : (saveHandler zero sch w js).runPath = some p := hr
  unfold shown getMerged getFromFile
  rw [h2, hr]
  dsimp only
  rw [h1, hf]
  rfl

/-- The values of `-id`, `-local`, … in the posted form that have no YAML name are not saved. -/
theorem unnamed_not_saved (zero : V) (sch : Nat → Field V) (w : World V) (c : Conf V) (f : File V)
    (h : (save zero sch w c).files (c.path.getD w.defPath) = some f) (i : Nat) (hp : (sch i).persist = false) : f i = none := by
  simp only [save, if_true, Option.some.injEq] at h
  subst h
  simp [encF, hp]

/-! ### Services and users in a saved file -/

/-- libcs/client/web/service/service.go:294-298. -/
def separateSvc (s : Svc) : Svc := if s.rand = some false then { s with rand := none } else s

theorem finish_separate {id : Bytes} {used : Bool} {s : Svc} {r : Svc × Bool} (h : finish id used s = .ok r) :
    finish id used (separateSvc s) = .ok r := by
  unfold separateSvc
  by_cases hr : s.rand = some false
  · rw [if_pos hr]
    have e : ∀ b : Bool, (b = false → finish id used { s with rand := some b } = .ok r →
        ∀ u, s.url = some u → (u.scheme == .tcp && s.port == 0) = false) := by
      intro b hb hf u hu
      subst hb
      cases hs : u.scheme with
      | tcp =>
        by_cases hp : s.port = 0
        · exfalso
          simp [finish, hu, hs, hp] at hf
          split at hf <;> cases hf
        · simp [hp]
      | http => rfl
      | https => rfl
      | other => rfl
    cases hu : s.url with
    | none => simp [finish, hu] at h
    | some u =>
      have h0 : finish id used { s with rand := some false } = .ok r := by
        rw [← hr]; exact h
      have hz := e false rfl h0 u hu
      rw [← h0]
      unfold finish
      dsimp only
      rw [hu]
      dsimp only
      rw [Option.getD_none, Option.getD_some, hz]
  · rw [if_neg hr]; exact h

theorem finishAll_separate {id : Bytes} : ∀ (ss : List Svc) (used : Bool) {r : List Svc},
    finishAll id used ss = .ok r → finishAll id used (ss.map separateSvc) = .ok r := by
  intro ss
  induction ss with
  | nil => intro used r h; exact h
  | cons s ss ih =>
    intro used r h
    unfold finishAll at h
    rw [List.map_cons]
    unfold finishAll
    cases hf : finish id used s with
    | panic => rw [hf] at h; cases h
    | err e => rw [hf] at h; cases h
    | ok p =>
      obtain ⟨s', used'⟩ := p
      rw [hf] at h
      dsimp only at h
      rw [finish_separate hf]
      dsimp only
      cases ha : finishAll id used' ss with
      | panic => rw [ha] at h; cases h
      | err e => rw [ha] at h; cases h
      | ok r' =>
        rw [ha] at h
        rw [ih used' ha]
        exact h

/-- C36: a list of services the client accepts is accepted, with the same meaning, after it was saved by the web UI
(which drops `remoteTCPRandom: false`). -/
theorem services_saved (id : Bytes) (ss r : List Svc) (h : finishAll id false ss = .ok r) :
    finishAll id false (ss.map separateSvc) = .ok r := finishAll_separate ss false h

/-- libcs/server/config.go:238-244 `host`, without the compiled patterns. -/
structure HostCfg where
  number : Option Nat
  regex : Option (List Bytes)
  withID : Option Bool
deriving DecidableEq

/-- libcs/server/config.go:154-165 `user`, the fields that are pointers. -/
structure UserCfg where
  tcpNumber : Option Nat
  host : HostCfg
deriving DecidableEq

/-- Limits that hold for a user. `regex` is used as a set. -/
structure Limits where
  tcpNumber : Nat
  number : Nat
  regex : List Bytes
  withID : Bool
deriving DecidableEq

/-- The options `tcpNumber`, `hostNumber`, `hostRegex`, `hostWithID`. -/
structure Flags where
  tcpNumber : Nat
  hostNumber : Nat
  hostRegex : List Bytes
  hostWithID : Bool

/-- libcs/server/server.go:935-939 and 971-1037: what a user inherits. -/
def limits (fl : Flags) (g : HostCfg) (u : UserCfg) : Limits where
  tcpNumber := u.tcpNumber.getD fl.tcpNumber
  number := u.host.number.getD (g.number.getD fl.hostNumber)
  regex := u.host.regex.getD (g.regex.getD [] ++ fl.hostRegex)
  withID := u.host.withID.getD (g.withID.getD fl.hostWithID)

/-- libcs/server/web/service/service.go:287-295 and 300-308. -/
def separateHost (h : HostCfg) : HostCfg where
  number := if h.number = some 0 then none else h.number
  regex := if h.regex = some [] then none else h.regex
  withID := if h.withID = some false then none else h.withID

/-- libcs/server/web/service/service.go:296-309. -/
def separateUser (u : UserCfg) : UserCfg where
  tcpNumber := if u.tcpNumber = some 0 then none else u.tcpNumber
  host := separateHost u.host

/-- C36, limits of users: they survive a save if no user overrides an inherited value with an explicit zero (and the
global host section none of the command line). -/
theorem user_limits_saved_partial (fl : Flags) (g : HostCfg) (u : UserCfg)
    (h1 : u.tcpNumber = some 0 → fl.tcpNumber = 0)
    (h2 : u.host.number = some 0 → g.number.getD fl.hostNumber = 0)
    (h3 : u.host.regex = some [] → g.regex.getD [] ++ fl.hostRegex = [])
    (h4 : u.host.withID = some false → g.withID.getD fl.hostWithID = false)
    (h5 : g.number = some 0 → fl.hostNumber = 0) (h6 : g.withID = some false → fl.hostWithID = false) :
    limits fl (separateHost g) (separateUser u) = limits fl g u := by
  have e1 : (separateHost g).number.getD fl.hostNumber = g.number.getD fl.hostNumber := by
    unfold separateHost; dsimp only; split
    · rename_i h; rw [h, Option.getD_none, Option.getD_some, h5 h]
    · rfl
  have e2 : (separateHost g).regex.getD [] = g.regex.getD [] := by
    unfold separateHost; dsimp only; split
    · rename_i h; rw [h]; rfl
    · rfl
  have e3 : (separateHost g).withID.getD fl.hostWithID = g.withID.getD fl.hostWithID := by
    unfold separateHost; dsimp only; split
    · rename_i h; rw [h, Option.getD_none, Option.getD_some, h6 h]
    · rfl
  unfold limits
  rw [e1, e2, e3]
  unfold separateUser
  dsimp only
  congr 1
  · split
    · rename_i h; rw [h, Option.getD_none, Option.getD_some, h1 h]
    · rfl
  · unfold separateHost; dsimp only; split
    · rename_i h; rw [h, Option.getD_none, Option.getD_some, h2 h]
    · rfl
  · unfold separateHost; dsimp only; split
    · rename_i h; rw [h, Option.getD_none, Option.getD_some, h3 h]
    · rfl
  · unfold separateHost; dsimp only; split
    · rename_i h; rw [h, Option.getD_none, Option.getD_some, h4 h]
    · rfl

/-- C36 is false otherwise: a user with `tcpNumber: 0`, `host.number: 0` (unlimited), `host.regex: []` (any prefix) and
`host.withID: false` falls back to the global restrictions once the configuration was saved by the web UI. -/
theorem user_limits_lost : ∃ fl g u, limits fl (separateHost g) (separateUser u) ≠ limits fl g u ∧
    (limits fl g u).number = 0 ∧ (limits fl (separateHost g) (separateUser u)).number = 3 ∧
    (limits fl g u).tcpNumber = 0 ∧ (limits fl (separateHost g) (separateUser u)).tcpNumber = 5 ∧
    (limits fl g u).withID = false ∧ (limits fl (separateHost g) (separateUser u)).withID = true ∧
    (limits fl g u).regex = [] ∧ (limits fl (separateHost g) (separateUser u)).regex = [[97]] :=
  ⟨⟨5, 0, [], false⟩, ⟨some 3, some [[97]], some true⟩, ⟨some 0, ⟨some 0, some [], some false⟩⟩, by decide⟩

/-! ## Theorems: crashes while saving (C50) -/

/-- C50: whenever the process stops, the file holds the old contents or a beginning of the new ones — never a mixture. -/
theorem crash_leaves_prefix (old : Option Bytes) (new : Bytes) (c : Option Bytes) (h : crashPoints old new c) :
    c = old ∨ ∃ p, c = some p ∧ p <+: new := by
  rcases h with h | ⟨n, hn, h⟩
  · exact Or.inl h
  · exact Or.inr ⟨_, h, List.take_prefix _ _⟩

/-- C50, exactly what holds of it: the file has the old or the new contents at every point except those where some but not
all of the new bytes have been written; there it has these. Missing from the claim: those points (`crash_loses_config`). -/
theorem crash_old_or_new_partial (old : Option Bytes) (new : Bytes) (c : Option Bytes) :
    crashPoints old new c ↔ c = old ∨ c = some new ∨ ∃ p q, new = p ++ q ∧ q ≠ [] ∧ c = some p := by
  constructor
  · rintro (h | ⟨n, hn, h⟩)
    · exact Or.inl h
    · by_cases hl : n = new.length
      · exact Or.inr (Or.inl (by rw [h, hl, List.take_length]))
      · refine Or.inr (Or.inr ⟨new.take n, new.drop n, (List.take_append_drop _ _).symm, ?_, h⟩)
        intro h0
        have := congrArg List.length h0
        simp at this
        omega
  · rintro (h | h | ⟨p, q, h1, _, h⟩)
    · exact Or.inl h
    · exact Or.inr ⟨new.length, Nat.le_refl _, by rw [h, List.take_length]⟩
    · exact Or.inr ⟨p.length, by rw [h1]; simp, by rw [h, h1]; simp⟩

/-- C50 is false as "old or new": the file is truncated first, so there is a point where both are lost. -/
theorem crash_loses_config (old new : Bytes) (ho : old ≠ []) (hn : new ≠ []) :
    ∃ c, crashPoints (some old) new c ∧ c ≠ some old ∧ c ≠ some new :=
  ⟨some [], Or.inr ⟨0, Nat.zero_le _, by simp⟩, by simpa using ho.symm, by simpa using hn.symm⟩

/-- A table of options for examples: a number with default 1, one without default, and a secret the forms do not carry. -/
def demo (i : Nat) : Field Nat := if i = 9 ∨ i = 11 then ⟨false, true, true, false, 1⟩ else if i = 45 then ⟨false, true, false, true, 0⟩ else ⟨false, true, true, false, 0⟩

/-- A saved configuration. The real tables of the two programs are in `Verif.Config.OptionTable`. -/
example : ∃ w : World Nat, w.runPath = some w.defPath ∧
    shown 0 demo (saveHandler 0 demo w (fun i => if i = 9 then some 7 else if i = 1 then some 5 else none)) 9 = 7 ∧
    shown 0 demo (saveHandler 0 demo w (fun i => if i = 9 then some 7 else if i = 1 then some 5 else none)) 11 = 1 ∧
    shown 0 demo (saveHandler 0 demo w (fun i => if i = 9 then some 7 else if i = 1 then some 5 else none)) 45 = 8 :=
  ⟨⟨fun _ => none, fun i => if i = 45 then 8 else 3, some 0, 0⟩, rfl, by decide, by decide, by decide⟩

/-- `-remoteTimeout 0` on the command line. -/
example : ∃ o, serverStart 0 demo .noFile (fun _ => none) (fun i => if i = 11 then some 0 else none) = some o ∧ o 11 = 1 :=
  ⟨_, rfl, by decide⟩

end Verif.Config.Merge
