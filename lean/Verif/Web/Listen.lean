import Verif.Common
set_option linter.unusedSimpArgs false
set_option linter.unusedVariables false
/-!
# C92: where and how the web interface is served
(libcs/server/web/web.go:87-145 `checkConfig`, `getServer`, 225-302 `start`; the client's is the same)
-/
namespace Verif.Web.Listen

/-- A certificate or key option. -/
inductive File where
  | unset | auto
  /-- a path; whether the file exists -/
  | path (exists_ : Bool)
deriving DecidableEq, Repr

/-- An address `host:port`; `v6`: the host is an IPv6 literal (in brackets). -/
structure Addr where
  host : Nat
  v6 : Bool
  port : Nat
deriving DecidableEq, Repr

structure Cfg where
  cert : File
  key : File
  addr : Addr
  /-- `IsNoArgs`: the process was started without arguments; its options come from the default file -/
  noArgs : Bool
deriving DecidableEq, Repr

/-- What the operating system says to one `Listen`. -/
inductive Res where
  | ok | inUse | other
deriving DecidableEq, Repr

/-- The rest of the world: whether the pair of files is a certificate, and the answers of `Listen`, one for each attempt. -/
structure Env where
  pairOk : Bool
  listen : Nat → Res

inductive Outcome where
  /-- `NewWebServer` returns an error -/
  | error
  /-- the goroutine of `start` ends without serving (in silence: the deferred message was built when `err` was nil) -/
  | silent
  /-- attempt number `k` succeeded; `tls`; the address listened on and the address of the link that is printed and opened -/
  | serving (tls : Bool) (at_ shown : Addr)
  /-- `start` is still trying -/
  | trying
deriving DecidableEq, Repr

/-- libcs/server/web/web.go:101-110 of `checkConfig`: an error if both options are paths and one of the files does not exist. -/
def checkFiles (c : Cfg) : Bool :=
  match c.cert, c.key with
  | .path a, .path b => a && b
  | _, _ => true

/-- libcs/server/web/web.go:112-145 `getServer`: `none` is an error, else whether TLS is to be used. -/
def getServer (c : Cfg) (e : Env) : Option Bool :=
  match c.cert, c.key with
  | .unset, .unset => some false
  | .auto, .auto => some true
  | _, _ => if e.pairOk then some true else none

/-- libcs/server/web/web.go:229-263, the loop for a process without arguments, with `fuel` attempts left: an address in use is replaced by
port 0 of the same host, written as `host + ":0"`, which is no address if the host has colons (`broken`). -/
def retry (e : Env) (fuel k : Nat) (a shown : Addr) (broken : Bool) : Outcome :=
  match fuel with
  | 0 => .trying
  | fuel + 1 =>
    if broken then .silent
    else match e.listen k with
      | .ok => .serving false a shown
      | .other => .silent
      | .inUse => retry e fuel (k + 1) { a with port := 0 } shown a.v6

/-- libcs/server/web/web.go:225-302 `start`: without arguments `Serve` in all cases (261), else `ServeTLS` (283) or `Serve` (298). -/
def start (c : Cfg) (e : Env) (tls : Bool) (fuel : Nat) : Outcome :=
  if c.noArgs then retry e fuel 0 c.addr c.addr false
  else match e.listen 0 with
    | .ok => .serving tls c.addr c.addr
    | _ => .silent

/-- `NewWebServer` and the goroutine it starts. -/
def serve (c : Cfg) (e : Env) (fuel : Nat) : Outcome :=
  if checkFiles c = false then .error
  else match getServer c e with
    | none => .error
    | some tls => start c e tls fuel

/-- Whether the user asked for TLS. -/
def wantsTLS (c : Cfg) : Prop := c.cert ≠ .unset ∨ c.key ≠ .unset

theorem getServer_wants {c : Cfg} {e : Env} {b : Bool} (h : getServer c e = some b) : b = true ↔ wantsTLS c := by
  unfold getServer at h
  unfold wantsTLS
  split at h
  · rename_i h1 h2; cases h; simp [h1, h2]
  · rename_i h1 h2; cases h; simp [h1, h2]
  · rename_i h1 h2
    split at h
    · cases h
      simp only [true_iff]
      by_cases hc : c.cert = .unset
      · by_cases hk : c.key = .unset
        · exact absurd hk (fun hk => h1 hc hk)
        · exact .inr hk
      · exact .inl hc
    · cases h

/-- **C92**, for a process started with arguments: TLS is spoken if and only if a certificate or key is configured, on the
configured address, which is the one that is shown. -/
theorem as_configured_partial (c : Cfg) (e : Env) (fuel : Nat) (h0 : c.noArgs = false) (tls : Bool) (a s : Addr)
    (h : serve c e fuel = .serving tls a s) : (tls = true ↔ wantsTLS c) ∧ a = c.addr ∧ s = c.addr := by
  unfold serve at h
  split at h
  · cases h
  · split at h
    · cases h
    · rename_i b hb
      simp only [start, h0, Bool.false_eq_true, if_false] at h
      split at h
      · cases h; exact ⟨getServer_wants hb, rfl, rfl⟩
      · cases h

/-- A configuration that asks for TLS and cannot have it is refused, with or without arguments: never a fallback to plain
text by a bad certificate. -/
theorem bad_certificate_refused (c : Cfg) (e : Env) (fuel : Nat) (hw : wantsTLS c) (ha : ¬ (c.cert = .auto ∧ c.key = .auto))
    (hp : e.pairOk = false) : serve c e fuel = .error := by
  unfold serve
  split
  · rfl
  · have : getServer c e = none := by
      unfold getServer
      split
      · rename_i h1 h2; rcases hw with h | h
        · exact absurd h1 h
        · exact absurd h2 h
      · rename_i h1 h2; exact absurd ⟨h1, h2⟩ ha
      · simp [hp]
    rw [this]

/-- A file that is missing is noticed before anything is served, whatever the other one is. -/
theorem missing_file_refused (c : Cfg) (e : Env) (fuel : Nat) (a b : Bool) (hc : c.cert = .path a) (hk : c.key = .path b)
    (h : a = false ∨ b = false) : serve c e fuel = .error := by
  unfold serve checkFiles
  rw [hc, hk]
  rcases h with rfl | rfl <;> simp

theorem retry_host (e : Env) : ∀ (fuel k : Nat) (a s : Addr) (br tls : Bool) (x y : Addr),
    retry e fuel k a s br = .serving tls x y → x.host = a.host ∧ x.v6 = a.v6 ∧ y = s ∧ tls = false
  | 0, k, a, s, br, tls, x, y, h => by cases h
  | fuel + 1, k, a, s, br, tls, x, y, h => by
    simp only [retry] at h
    split at h
    · cases h
    · split at h
      · cases h; exact ⟨rfl, rfl, rfl, rfl⟩
      · cases h
      · obtain ⟨h1, h2, h3, h4⟩ := retry_host e fuel (k + 1) { a with port := 0 } s _ tls x y h
        exact ⟨h1, h2, h3, h4⟩

/-- **C92**: whatever happens, the interface is never served on another host than the configured one (so that an address of
the loopback interface stays one). -/
theorem host_as_configured (c : Cfg) (e : Env) (fuel : Nat) (tls : Bool) (a s : Addr) (h : serve c e fuel = .serving tls a s) :
    a.host = c.addr.host ∧ a.v6 = c.addr.v6 := by
  cases hn : c.noArgs with
  | false =>
    obtain ⟨_, rfl, _⟩ := as_configured_partial c e fuel hn tls a s h
    exact ⟨rfl, rfl⟩
  | true =>
    unfold serve at h
    split at h
    · cases h
    · split at h
      · cases h
      · simp only [start, hn, if_true] at h
        have := retry_host e _ _ _ _ _ _ _ _ h
        exact ⟨this.1, this.2.1⟩

/-- **C92 is false of the code (1)**: a process without arguments never speaks TLS, whatever certificate its file configures. -/
theorem no_args_never_tls (c : Cfg) (e : Env) (fuel : Nat) (h0 : c.noArgs = true) (tls : Bool) (a s : Addr)
    (h : serve c e fuel = .serving tls a s) : tls = false := by
  unfold serve at h
  split at h
  · cases h
  · split at h
    · cases h
    · simp only [start, h0, if_true] at h
      exact (retry_host e _ _ _ _ _ _ _ _ h).2.2.2

theorem no_args_tls_ignored :
    let c : Cfg := ⟨.auto, .auto, ⟨127, false, 8000⟩, true⟩
    wantsTLS c ∧ serve c ⟨true, fun _ => .ok⟩ 1 = .serving false ⟨127, false, 8000⟩ ⟨127, false, 8000⟩ := by
  refine ⟨.inl (by decide), by decide⟩

/-- **C92 is false of the code (2)**: if the address is in use, the link that is printed leads to the old port. -/
theorem link_leads_elsewhere :
    serve ⟨.unset, .unset, ⟨127, false, 8000⟩, true⟩ ⟨true, fun k => if k = 0 then .inUse else .ok⟩ 2 =
      .serving false ⟨127, false, 0⟩ ⟨127, false, 8000⟩ := by decide

/-- **C92 is false of the code (3)**: with an IPv6 address in use nothing is served at all, although another port is free. -/
theorem v6_not_served (port : Nat) (l : Nat → Res) (h : l 0 = .inUse) (fuel : Nat) :
    serve ⟨.unset, .unset, ⟨1, true, port⟩, true⟩ ⟨true, l⟩ (fuel + 2) = .silent := by
  simp [serve, checkFiles, getServer, start, retry, h]

/-- The retry loop ends at the latest with the second attempt, unless port 0 is reported in use too. -/
theorem retry_ends (c : Cfg) (e : Env) (fuel : Nat) (h : e.listen 1 ≠ .inUse) : serve c e (fuel + 2) ≠ .trying := by
  unfold serve
  split
  · simp
  · split
    · simp
    · rename_i b hb
      simp only [start]
      split
      · simp only [retry]
        split
        · simp
        · split
          · simp
          · simp
          · split
            · simp
            · split
              · simp
              · simp
              · rename_i h1; exact absurd h1 h
      · split <;> simp

/-- Non-vacuity. -/
example : serve ⟨.path true, .path true, ⟨0, false, 443⟩, false⟩ ⟨true, fun _ => .ok⟩ 1 =
    .serving true ⟨0, false, 443⟩ ⟨0, false, 443⟩ := by decide

end Verif.Web.Listen
