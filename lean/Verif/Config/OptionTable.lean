import Verif.Config.Merge
/-!
# C36, C49: every option of the two programs by name

The tables of `Options` (libcs/client/config.go:41-98, libcs/server/config.go:41-107) and `DefaultConfig`
(libcs/client/config.go:102-127, libcs/server/config.go:109-137). Values are written as text, the zero value of a type
as the empty text; `version` stands for `predef.Version`. The text forms are only names for values: what the YAML and
JSON libraries make of them is trusted, as in `Verif.Config.Merge`.
-/
set_option linter.unusedSimpArgs false
set_option linter.unusedVariables false
namespace Verif.Config.OptionTable
open Verif Verif.Config.Merge

abbrev Table := List (String × Field String)

/-- A field: name, default, has a YAML name, has a JSON name, copied by `InheritImmutableConfigFields`
(libcs/client/web/service/service.go:232-248, libcs/server/web/service/service.go:223-239), is a slice. -/
def opt (n d : String) (p j im sl : Bool) : String × Field String := (n, ⟨sl, p, j, im, d⟩)

/-- libcs/client/config.go:41-98, 102-127. -/
def clientTable : Table :=
  [opt "Config" "" false false true false,
   opt "ID" "" true true false false,
   opt "Secret" "" true true false false,
   opt "ReconnectDelay" "5s" true true false false,
   opt "Remote" "" true true false true,
   opt "RemoteSTUN" "" true true false true,
   opt "RemoteAPI" "" true true false false,
   opt "RemoteCert" "" true true false false,
   opt "RemoteCertInsecure" "" true true false false,
   opt "RemoteConnections" "3" true true false false,
   opt "RemoteIdleConnections" "1" true true false false,
   opt "RemoteTimeout" "45s" true true false false,
   opt "HostPrefix" "" false false false true,
   opt "RemoteTCPPort" "" false false false true,
   opt "RemoteTCPRandom" "" false false false true,
   opt "Local" "" false false false true,
   opt "LocalTimeout" "" false false false true,
   opt "UseLocalAsHTTPHost" "" false false false true,
   opt "SentryDSN" "" true true false false,
   opt "SentryLevel" "" true true false true,
   opt "SentrySampleRate" "1" true true false false,
   opt "SentryRelease" "version" true true false false,
   opt "SentryEnvironment" "" true true false false,
   opt "SentryServerName" "" true true false false,
   opt "SentryDebug" "" true true false false,
   opt "WebRTCConnectionIdleTimeout" "5m" true true false false,
   opt "WebRTCRemoteConnections" "30" true true false false,
   opt "WebRTCLogLevel" "warning" true true false false,
   opt "WebRTCMinPort" "" true true false false,
   opt "WebRTCMaxPort" "" true true false false,
   opt "WebRTCThread" "" true true false false,
   opt "TCPForwardAddr" "" true true false false,
   opt "TCPForwardHostPrefix" "" true true false false,
   opt "TCPForwardConnections" "3" true true false false,
   opt "LogFile" "" true true false false,
   opt "LogFileMaxSize" "536870912" true true false false,
   opt "LogFileMaxCount" "7" true true false false,
   opt "LogLevel" "info" true true false false,
   opt "Version" "" false false false false,
   opt "WebAddr" "" true true true false,
   opt "WebCertFile" "" true false true false,
   opt "WebKeyFile" "" true false true false,
   opt "EnablePprof" "" true false true false,
   opt "SigningKey" "" true false true false,
   opt "Admin" "" true false true false,
   opt "Password" "" true false true false,
   opt "Signal" "" false false false false,
   opt "OpenBBR" "" true true false false]

/-- libcs/server/config.go:41-107, 109-137. -/
def serverTable : Table :=
  [opt "Config" "" false false true false,
   opt "Addr" "" true true false false,
   opt "TLSAddr" "" true true false false,
   opt "TLSMinVersion" "tls1.2" true true false false,
   opt "CertFile" "" true true false false,
   opt "KeyFile" "" true true false false,
   opt "IDs" "" false false false true,
   opt "Secrets" "" false false false true,
   opt "Users" "" true true false false,
   opt "AuthAPI" "" true true false false,
   opt "AllowAnyClient" "" true true false false,
   opt "TCPRanges" "" false false false true,
   opt "TCPNumber" "" true true false false,
   opt "Speed" "" true true false false,
   opt "Connections" "10" true true false false,
   opt "ReconnectTimes" "3" true true false false,
   opt "ReconnectDuration" "5m" true true false false,
   opt "HostNumber" "" false false false false,
   opt "HostRegex" "" false false false true,
   opt "HostWithID" "" false false false false,
   opt "HTTPMUXHeader" "Host" true true false false,
   opt "MaxHandShakeOptions" "600" true true false false,
   opt "Timeout" "90s" true true false false,
   opt "TimeoutOnUnidirectionalTraffic" "" true true false false,
   opt "APIAddr" "" true true false false,
   opt "APICertFile" "" true true false false,
   opt "APIKeyFile" "" true true false false,
   opt "APITLSMinVersion" "tls1.2" true true false false,
   opt "STUNAddr" "" true true false false,
   opt "STUNLogLevel" "warn" true true false false,
   opt "SNIAddr" "" true true false false,
   opt "SentryDSN" "" true true false false,
   opt "SentryLevel" "" true true false true,
   opt "SentrySampleRate" "1" true true false false,
   opt "SentryRelease" "version" true true false false,
   opt "SentryEnvironment" "" true true false false,
   opt "SentryServerName" "" true true false false,
   opt "SentryDebug" "" true true false false,
   opt "LogFile" "" true true false false,
   opt "LogFileMaxSize" "536870912" true true false false,
   opt "LogFileMaxCount" "7" true true false false,
   opt "LogLevel" "info" true true false false,
   opt "Version" "" false false false false,
   opt "WebAddr" "" true true true false,
   opt "WebCertFile" "" true false true false,
   opt "WebKeyFile" "" true false true false,
   opt "EnablePprof" "" true false true false,
   opt "SigningKey" "" true false true false,
   opt "Admin" "" true false true false,
   opt "Password" "" true false true false,
   opt "Signal" "" false false false false,
   opt "QuicAddr" "" true true false false,
   opt "OpenBBR" "" true true false false]

/-- The field numbered `i`; past the end nothing is ever stored. -/
def schema (t : Table) (i : Nat) : Field String := ((t[i]?).map (·.2)).getD ⟨false, false, false, false, ""⟩

def name (t : Table) (i : Nat) : Option String := (t[i]?).map (·.1)

/-! ## Specification -/

/-- What a user is told about the options. -/
structure Spec where
  /-- the options with a default, and the default -/
  defaults : List (String × String)
  /-- options that can only be given on the command line -/
  commandLine : List String
  /-- options of the file that the web UI neither shows nor changes -/
  hidden : List String
  /-- options that the web UI may change but that keep their value if it does not mention them -/
  kept : List String

def Spec.dflt (s : Spec) (n : String) : String := ((s.defaults.find? (fun e => e.1 == n)).map (·.2)).getD ""

def clientSpec : Spec where
  defaults := [("ReconnectDelay", "5s"), ("RemoteTimeout", "45s"), ("RemoteConnections", "3"), ("RemoteIdleConnections", "1"),
    ("SentrySampleRate", "1"), ("SentryRelease", "version"), ("WebRTCConnectionIdleTimeout", "5m"),
    ("WebRTCRemoteConnections", "30"), ("WebRTCLogLevel", "warning"), ("TCPForwardConnections", "3"),
    ("LogFileMaxCount", "7"), ("LogFileMaxSize", "536870912"), ("LogLevel", "info")]
  commandLine := ["Config", "HostPrefix", "RemoteTCPPort", "RemoteTCPRandom", "Local", "LocalTimeout",
    "UseLocalAsHTTPHost", "Version", "Signal"]
  hidden := ["WebCertFile", "WebKeyFile", "EnablePprof", "SigningKey", "Admin", "Password"]
  kept := ["WebAddr"]

def serverSpec : Spec where
  defaults := [("Timeout", "90s"), ("TLSMinVersion", "tls1.2"), ("APITLSMinVersion", "tls1.2"), ("LogFileMaxCount", "7"),
    ("LogFileMaxSize", "536870912"), ("LogLevel", "info"), ("STUNLogLevel", "warn"), ("SentrySampleRate", "1"),
    ("SentryRelease", "version"), ("HTTPMUXHeader", "Host"), ("Connections", "10"), ("ReconnectTimes", "3"),
    ("ReconnectDuration", "5m"), ("MaxHandShakeOptions", "600")]
  commandLine := ["Config", "IDs", "Secrets", "TCPRanges", "HostNumber", "HostRegex", "HostWithID", "Version", "Signal"]
  hidden := ["WebCertFile", "WebKeyFile", "EnablePprof", "SigningKey", "Admin", "Password"]
  kept := ["WebAddr"]

/-- The effective value of the option called `n`, given what the command line and the file say about it. -/
def Spec.effective (s : Spec) (n : String) (flag file : Option String) : String :=
  match flag with
  | some v => if v = "" then s.dflt n else v
  | none =>
    match file with
    | some v => if v = "" ∨ n ∈ s.commandLine then s.dflt n else v
    | none => s.dflt n

/-- What the web UI shows for the option called `n` after a form was saved: `old` is what it showed before. -/
def Spec.afterSave (s : Spec) (n : String) (old : String) (posted : Option String) : String :=
  if n ∈ s.commandLine then s.dflt n
  else if n ∈ s.hidden then old
  else match posted with
    | some v => if v = "" then s.dflt n else v
    | none => if n ∈ s.kept then old else s.dflt n

/-! ## Proofs -/

/-- The table agrees with the specification, row by row. -/
def agrees (s : Spec) (e : String × Field String) : Bool :=
  e.2.dflt == s.dflt e.1 && e.2.persist == !(s.commandLine.contains e.1) &&
  e.2.json == !(s.commandLine.contains e.1 || s.hidden.contains e.1) &&
  (s.commandLine.contains e.1 || e.2.immut == (s.hidden.contains e.1 || s.kept.contains e.1)) &&
  (!e.2.slice || s.dflt e.1 == "") && (!(s.commandLine.contains e.1 || s.hidden.contains e.1 || s.kept.contains e.1) || s.dflt e.1 == "")

theorem client_agrees : clientTable.all (agrees clientSpec) = true := by decide +kernel
theorem server_agrees : serverTable.all (agrees serverSpec) = true := by decide +kernel

structure Row (s : Spec) (n : String) (f : Field String) : Prop where
  dflt : f.dflt = s.dflt n
  persist : f.persist = true ↔ n ∉ s.commandLine
  json : f.json = true ↔ n ∉ s.commandLine ∧ n ∉ s.hidden
  immut : n ∉ s.commandLine → (f.immut = true ↔ n ∈ s.hidden ∨ n ∈ s.kept)
  slice : f.slice = true → s.dflt n = ""
  none : n ∈ s.commandLine ∨ n ∈ s.hidden ∨ n ∈ s.kept → s.dflt n = ""

theorem row_of_agrees {s : Spec} {t : Table} (h : t.all (agrees s) = true) {i : Nat} {n : String} (hn : name t i = some n) :
    Row s n (schema t i) := by
  unfold name at hn
  unfold schema
  cases hi : t[i]? with
  | none => rw [hi] at hn; simp at hn
  | some e =>
    rw [hi] at hn
    simp only [Option.map_some, Option.some.injEq] at hn
    have hm := List.mem_of_getElem? hi
    have ha := (List.all_eq_true.mp h) e hm
    subst hn
    simp only [agrees, Bool.and_eq_true, Bool.or_eq_true, beq_iff_eq, Bool.not_eq_true', List.contains_eq_mem, decide_eq_true_eq] at ha
    obtain ⟨⟨⟨⟨⟨h1, h2⟩, h3⟩, h4⟩, h5⟩, h6⟩ := ha
    simp only [Option.map_some, Option.getD_some]
    refine ⟨h1, ?_, ?_, ?_, ?_, ?_⟩
    · rw [h2]; simp
    · rw [h3]; simp
    · intro hc
      rcases h4 with h4 | h4
      · exact absurd h4 hc
      · rw [h4]; simp
    · intro hs; rcases h5 with h5 | h5
      · rw [hs] at h5; cases h5
      · exact h5
    · intro hs; rcases h6 with h6 | h6
      · simp only [Bool.or_eq_false_iff, decide_eq_false_iff_not] at h6
        rcases hs with hs | hs | hs
        · exact absurd hs h6.1.1
        · exact absurd hs h6.1.2
        · exact absurd hs h6.2
      · exact h6

theorem start_effective {s : Spec} {t : Table} (h : t.all (agrees s) = true) {i : Nat} {n : String} (hn : name t i = some n)
    (f flags : File String) :
    mergeF "" (schema t i) (flagsF (decF (schema t i) (schema t i).dflt (f i)) (flags i)) = s.effective n (flags i) (f i) := by
  obtain ⟨hd, hp, hj, him, hs, hz⟩ := row_of_agrees h hn
  generalize schema t i = F at hd hp hj him hs hz
  unfold Spec.effective
  cases hf : flags i with
  | some v =>
    simp only [flagsF, Option.getD_some, mergeF]
    by_cases hv : v = ""
    · subst hv
      simp only [true_and, if_true]
      by_cases hsl : F.slice = true
      · rw [hs hsl]; simp [hsl]
      · simp only [Bool.not_eq_true] at hsl
        by_cases hdd : F.dflt = ""
        · simp [hsl, hdd, ← hd]
        · simp [hsl, hdd, ← hd]
    · simp [hv]
  | none =>
    simp only [flagsF, Option.getD_none]
    cases hv : f i with
    | none => simp [decF, mergeF, ← hd]
    | some v =>
      by_cases hc : n ∈ s.commandLine
      · have : F.persist = false := by
          cases hpp : F.persist with
          | false => rfl
          | true => exact absurd hc (hp.mp hpp)
        simp [decF, this, hc, mergeF, ← hd]
      · have : F.persist = true := hp.mpr hc
        simp only [decF, this, if_true, Option.getD_some, hc, or_false, mergeF]
        by_cases hv : v = ""
        · subst hv
          simp only [true_and, if_true]
          by_cases hsl : F.slice = true
          · rw [hs hsl]; simp [hsl]
          · simp only [Bool.not_eq_true] at hsl
            by_cases hdd : F.dflt = ""
            · simp [hsl, hdd, ← hd]
            · simp [hsl, hdd, ← hd]
        · simp [hv]

theorem merge_spec {s : Spec} {n : String} {F : Field String} (r : Row s n F) (v : String) :
    mergeF "" F v = if v = "" then s.dflt n else v := by
  unfold mergeF
  by_cases hv : v = ""
  · subst hv
    simp only [true_and, if_true]
    by_cases hsl : F.slice = true
    · rw [r.slice hsl]; simp [hsl]
    · simp only [Bool.not_eq_true] at hsl
      by_cases hdd : F.dflt = ""
      · simp [hsl, hdd, ← r.dflt]
      · simp [hsl, hdd, ← r.dflt]
  · simp [hv]

theorem inherit_shown (sch : Nat → Field String) (w : World String) (i : Nat) :
    (inherit "" sch w).opts i = shown "" sch w i := by
  unfold inherit shown
  cases getMerged "" sch w <;> rfl

theorem save_shown {s : Spec} {t : Table} (h : t.all (agrees s) = true) {i : Nat} {n : String} (hn : name t i = some n)
    (w : World String) (js : File String) (p : Path)
    (hr : w.runPath = some p) (hp : w.files p = none ∨ p = w.defPath) :
    shown "" (schema t) (saveHandler "" (schema t) w js) i = s.afterSave n (shown "" (schema t) w i) (js i) := by
  have r := row_of_agrees h hn
  have hpath : (post "" (schema t) w js).path.getD w.defPath = p := by
    unfold post inherit getMerged getFromFile
    rw [hr]
    dsimp only
    cases hf : w.files p with
    | none => rfl
    | some f =>
      rcases hp with h | h
      · rw [hf] at h; cases h
      · exact h.symm
  obtain ⟨c', h1, h2⟩ := saved_reads_back "" (schema t) w (post "" (schema t) w js) p hpath hr
  unfold Spec.afterSave
  by_cases hc : n ∈ s.commandLine
  · rw [if_pos hc]
    have hpf : (schema t i).persist = false := by
      cases hpp : (schema t i).persist with
      | false => rfl
      | true => exact absurd hc (r.persist.mp hpp)
    have hh : shown "" (schema t) (saveHandler "" (schema t) w js) i = mergeF "" (schema t i) "" := by
      simp [shown, saveHandler, save, getMerged, getFromFile, hr, hpath, decF, hpf]
    rw [hh, merge_spec r]; simp
  · have hpt : (schema t i).persist = true := r.persist.mpr hc
    have h3 : shown "" (schema t) (saveHandler "" (schema t) w js) i = mergeF "" (schema t i) ((post "" (schema t) w js).opts i) := by
      unfold shown saveHandler
      rw [h1]
      exact (h2 i hpt).1
    rw [if_neg hc, h3]
    have hm : ∀ v, (n ∈ s.hidden ∨ n ∈ s.kept) → mergeF "" (schema t i) v = v := by
      intro v hk
      rw [merge_spec r, r.none (Or.inr hk)]
      split
      · rename_i hv; exact hv.symm
      · rfl
    by_cases hh : n ∈ s.hidden
    · rw [if_pos hh]
      have hj : (schema t i).json = false := by
        cases hjj : (schema t i).json with
        | false => rfl
        | true => exact absurd hh (r.json.mp hjj).2
      have hi : (schema t i).immut = true := (r.immut hc).mpr (Or.inl hh)
      have : (post "" (schema t) w js).opts i = shown "" (schema t) w i := by
        rw [← inherit_shown]; simp [post, hj, hi]
      rw [this, hm _ (Or.inl hh)]
    · rw [if_neg hh]
      have hj : (schema t i).json = true := r.json.mpr ⟨hc, hh⟩
      cases hjs : js i with
      | some v =>
        have : (post "" (schema t) w js).opts i = v := by simp [post, hj, hjs]
        rw [this, merge_spec r]
      | none =>
        by_cases hk : n ∈ s.kept
        · have hi : (schema t i).immut = true := (r.immut hc).mpr (Or.inr hk)
          have : (post "" (schema t) w js).opts i = shown "" (schema t) w i := by
            rw [← inherit_shown]; simp [post, hj, hi, hjs]
          rw [this, hm _ (Or.inr hk)]; simp [hk]
        · have hi : (schema t i).immut = false := by
            cases hii : (schema t i).immut with
            | false => rfl
            | true =>
              rcases (r.immut hc).mp hii with h | h
              · exact absurd h hh
              · exact absurd h hk
          have : (post "" (schema t) w js).opts i = "" := by simp [post, hj, hi, hjs]
          rw [this, merge_spec r]; simp [hk]

/-! ## Theorems -/

/-- The names of the client's options, in order: nothing else can be set. -/
theorem client_names : clientTable.map (·.1) =
    ["Config", "ID", "Secret", "ReconnectDelay", "Remote", "RemoteSTUN", "RemoteAPI", "RemoteCert", "RemoteCertInsecure",
     "RemoteConnections", "RemoteIdleConnections", "RemoteTimeout", "HostPrefix", "RemoteTCPPort", "RemoteTCPRandom",
     "Local", "LocalTimeout", "UseLocalAsHTTPHost", "SentryDSN", "SentryLevel", "SentrySampleRate", "SentryRelease",
     "SentryEnvironment", "SentryServerName", "SentryDebug", "WebRTCConnectionIdleTimeout", "WebRTCRemoteConnections",
     "WebRTCLogLevel", "WebRTCMinPort", "WebRTCMaxPort", "WebRTCThread", "TCPForwardAddr", "TCPForwardHostPrefix",
     "TCPForwardConnections", "LogFile", "LogFileMaxSize", "LogFileMaxCount", "LogLevel", "Version", "WebAddr",
     "WebCertFile", "WebKeyFile", "EnablePprof", "SigningKey", "Admin", "Password", "Signal", "OpenBBR"] := rfl

/-- The names of the server's options. -/
theorem server_names : serverTable.map (·.1) =
    ["Config", "Addr", "TLSAddr", "TLSMinVersion", "CertFile", "KeyFile", "IDs", "Secrets", "Users", "AuthAPI",
     "AllowAnyClient", "TCPRanges", "TCPNumber", "Speed", "Connections", "ReconnectTimes", "ReconnectDuration",
     "HostNumber", "HostRegex", "HostWithID", "HTTPMUXHeader", "MaxHandShakeOptions", "Timeout",
     "TimeoutOnUnidirectionalTraffic", "APIAddr", "APICertFile", "APIKeyFile", "APITLSMinVersion", "STUNAddr",
     "STUNLogLevel", "SNIAddr", "SentryDSN", "SentryLevel", "SentrySampleRate", "SentryRelease", "SentryEnvironment",
     "SentryServerName", "SentryDebug", "LogFile", "LogFileMaxSize", "LogFileMaxCount", "LogLevel", "Version", "WebAddr",
     "WebCertFile", "WebKeyFile", "EnablePprof", "SigningKey", "Admin", "Password", "Signal", "QuicAddr", "OpenBBR"] := rfl

/-- C49 for every option of the client by name: whatever the file and the command line say, the client started on a
readable file runs with the value of the command line, else of the file, else the documented default; an explicit zero
counts as not given, and what the file says about the options of the command line is ignored. -/
theorem client_options_by_name (i : Nat) (n : String) (hn : name clientTable i = some n) (f flags junk : File String) :
    ∃ o, clientStart "" (schema clientTable) (.ok f) junk flags = some o ∧ o i = clientSpec.effective n (flags i) (f i) :=
  ⟨_, rfl, start_effective client_agrees hn f flags⟩

/-- C49 for every option of the server by name. -/
theorem server_options_by_name (i : Nat) (n : String) (hn : name serverTable i = some n) (f flags junk : File String) :
    ∃ o, serverStart "" (schema serverTable) (.ok f) junk flags = some o ∧ o i = serverSpec.effective n (flags i) (f i) :=
  ⟨_, rfl, start_effective server_agrees hn f flags⟩

/-- C49, without a file. -/
theorem options_by_name_no_file (i : Nat) (n : String) (flags junk : File String) :
    (name clientTable i = some n → ∃ o, clientStart "" (schema clientTable) .noFile junk flags = some o ∧
      o i = clientSpec.effective n (flags i) none) ∧
    (name serverTable i = some n → ∃ o, serverStart "" (schema serverTable) .noFile junk flags = some o ∧
      o i = serverSpec.effective n (flags i) none) := by
  constructor <;> intro hn
  · refine ⟨_, rfl, ?_⟩
    have := start_effective client_agrees hn (fun _ => none) flags
    simpa [decF] using this
  · refine ⟨_, rfl, ?_⟩
    have := start_effective server_agrees hn (fun _ => none) flags
    simpa [decF] using this

/-- C36 for every option of the client by name: what the web UI shows after a form was saved to the file the client
runs with. -/
theorem client_saved_by_name_partial (i : Nat) (n : String) (hn : name clientTable i = some n) (w : World String)
    (js : File String) (p : Path) (hr : w.runPath = some p) (hp : w.files p = none ∨ p = w.defPath) :
    shown "" (schema clientTable) (saveHandler "" (schema clientTable) w js) i =
      clientSpec.afterSave n (shown "" (schema clientTable) w i) (js i) :=
  save_shown client_agrees hn w js p hr hp

/-- C36 for every option of the server by name. -/
theorem server_saved_by_name_partial (i : Nat) (n : String) (hn : name serverTable i = some n) (w : World String)
    (js : File String) (p : Path) (hr : w.runPath = some p) (hp : w.files p = none ∨ p = w.defPath) :
    shown "" (schema serverTable) (saveHandler "" (schema serverTable) w js) i =
      serverSpec.afterSave n (shown "" (schema serverTable) w i) (js i) :=
  save_shown server_agrees hn w js p hr hp

/-- C36: a form can never change the administrator, the password, the signing key or the certificates of either
program: whatever is posted, the UI shows the same afterwards. -/
theorem credentials_not_posted (n : String)
    (h : n ∈ ["WebCertFile", "WebKeyFile", "EnablePprof", "SigningKey", "Admin", "Password"])
    (w : World String) (js : File String) (p : Path) (hr : w.runPath = some p) (hp : w.files p = none ∨ p = w.defPath) (i : Nat) :
    (name clientTable i = some n → shown "" (schema clientTable) (saveHandler "" (schema clientTable) w js) i =
      shown "" (schema clientTable) w i) ∧
    (name serverTable i = some n → shown "" (schema serverTable) (saveHandler "" (schema serverTable) w js) i =
      shown "" (schema serverTable) w i) := by
  have hc : n ∉ clientSpec.commandLine := by
    simp only [List.mem_cons, List.not_mem_nil, or_false] at h
    rcases h with rfl | rfl | rfl | rfl | rfl | rfl <;> decide +kernel
  have hs : n ∉ serverSpec.commandLine := by
    simp only [List.mem_cons, List.not_mem_nil, or_false] at h
    rcases h with rfl | rfl | rfl | rfl | rfl | rfl <;> decide +kernel
  constructor <;> intro hn
  · rw [client_saved_by_name_partial i n hn w js p hr hp]; unfold Spec.afterSave; rw [if_neg hc, if_pos (show n ∈ clientSpec.hidden from h)]
  · rw [server_saved_by_name_partial i n hn w js p hr hp]; unfold Spec.afterSave; rw [if_neg hs, if_pos (show n ∈ serverSpec.hidden from h)]

/-- The tables meet the hypothesis of `saved_restarts`: no slice has a default. -/
theorem schemas_ok (i : Nat) : ((schema clientTable i).slice = true → (schema clientTable i).dflt = "") ∧
    ((schema serverTable i).slice = true → (schema serverTable i).dflt = "") := by
  have key : ∀ (s : Spec) (t : Table), t.all (agrees s) = true → (schema t i).slice = true → (schema t i).dflt = "" := by
    intro s t h hs
    cases hn : name t i with
    | some n => have r := row_of_agrees h hn; rw [r.dflt, r.slice hs]
    | none =>
      unfold name at hn; simp only [Option.map_eq_none_iff] at hn
      unfold schema; rw [hn]; rfl
  exact ⟨key _ _ client_agrees, key _ _ server_agrees⟩

/-- The server's command line of a user, limits and port ranges are gone from a saved file: a server restarted on it
without its command line has no users and no limits. -/
theorem server_users_not_saved (w : World String) (c : Conf String) (f : File String)
    (h : (save "" (schema serverTable) w c).files (c.path.getD w.defPath) = some f) (i : Nat) (n : String)
    (hn : name serverTable i = some n)
    (hk : n ∈ ["IDs", "Secrets", "TCPRanges", "HostNumber", "HostRegex", "HostWithID"]) :
    ∃ o, serverStart "" (schema serverTable) (.ok f) (fun _ => none) (fun _ => none) = some o ∧ o i = "" := by
  have r := row_of_agrees server_agrees hn
  have hm : n ∈ serverSpec.commandLine := by
    simp only [List.mem_cons, List.not_mem_nil, or_false] at hk
    rcases hk with rfl | rfl | rfl | rfl | rfl | rfl <;> decide +kernel
  have hp : (schema serverTable i).persist = false := by
    cases hpp : (schema serverTable i).persist with
    | false => rfl
    | true => exact absurd hm (r.persist.mp hpp)
  have hf := unnamed_not_saved "" (schema serverTable) w c f h i hp
  obtain ⟨o, h1, h2⟩ := server_options_by_name i n hn f (fun _ => none) (fun _ => none)
  refine ⟨o, h1, ?_⟩
  rw [h2]; unfold Spec.effective; rw [hf]
  exact r.none (Or.inl hm)

/-- The hypotheses are met: option 11 of the client is its remote time-out; set to 0 it is 45 seconds. -/
example : name clientTable 11 = some "RemoteTimeout" ∧ clientSpec.effective "RemoteTimeout" (some "") none = "45s" ∧
    clientSpec.effective "RemoteTimeout" none (some "10s") = "10s" ∧ clientSpec.effective "Local" none (some "x") = "" ∧
    name serverTable 22 = some "Timeout" ∧ serverSpec.effective "Timeout" none none = "90s" :=
  ⟨rfl, by decide +kernel, by decide +kernel, by decide +kernel, rfl, by decide +kernel⟩

/-- A client whose file has `remoteConnections: 7` and the administrator `root`; the form sets the id only. -/
example : ∃ w : World String, w.runPath = some w.defPath ∧
    shown "" (schema clientTable) w 9 = "7" ∧
    shown "" (schema clientTable) (saveHandler "" (schema clientTable) w (fun i => if i = 1 then some "abc" else none)) 9 = "3" ∧
    shown "" (schema clientTable) (saveHandler "" (schema clientTable) w (fun i => if i = 1 then some "abc" else none)) 1 = "abc" ∧
    shown "" (schema clientTable) (saveHandler "" (schema clientTable) w (fun i => if i = 1 then some "abc" else none)) 44 = "root" :=
  ⟨⟨fun _ => some (fun i => if i = 9 then some "7" else if i = 44 then some "root" else none), fun _ => "", some 0, 0⟩, rfl,
    by decide +kernel, by decide +kernel, by decide +kernel, by decide +kernel⟩

end Verif.Config.OptionTable
