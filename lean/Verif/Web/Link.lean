import Verif.Client.Dialer
set_option linter.unusedSimpArgs false
set_option linter.unusedVariables false
/-!
# C151: the links of the web console (libcs/server/web/web.go:40-146, 225-298, libcs/client/web/web.go:40-147, 226-299,
libcs/web/server/util/browser.go:38-60, libcs/server/web/service/service.go:141-175)

The web console listens on the configured address, opens a browser on a link to it and lists a link to its profiles. The server and the
client have the same code here. `net.Listen` and the certificates are the environment: what an attempt to listen does and whether the
certificate files load are inputs.
-/
namespace Verif.Web.Link
open Verif.Client.Dialer (Text digits lastColon splitHostPort lastColon_none lastColon_at digits_no_colon)

def http : Text := "http://".toList
def https : Text := "https://".toList

/-- The options `webAddr`, `webCertFile`, `webKeyFile`. -/
structure Cfg where
  addr : Text
  cert : Text
  key : Text
deriving DecidableEq

/-- libcs/server/web/web.go:86-93, libcs/client/web/web.go:84-90 (`checkConfig`): an address without a colon is a port. The check that
certificate files exist is part of `loads` below: files that do not exist do not load. -/
def checkAddr (a : Text) : Option Text := if a = [] then none else if ':' ∈ a then some a else some (':' :: a)

inductive Tls where
  | plain | tls | refused
deriving DecidableEq

/-- libcs/server/web/web.go:122-145, libcs/client/web/web.go:122-146 (`getServer`): `loads` says that `LoadX509KeyPair` succeeds. -/
def tlsOf (c : Cfg) (loads : Bool) : Tls :=
  if c.cert = [] ∧ c.key = [] then .plain
  else if c.cert = "auto".toList ∧ c.key = "auto".toList then .tls
  else if loads then .tls else .refused

/-! ## Links -/

/-- Characters of host names and IP addresses. -/
def safe (c : Char) : Bool := c.isAlphanum || c == '.' || c == '-'

/-- net/url `parseHost`, `validOptionalPort`: what the parser accepts behind `//`. Simplified: escapes, user names, paths and other
characters than those of names and addresses are answered as errors, and the theorems do not speak about them. -/
def hostOk (t : Text) : Bool :=
  match t with
  | '[' :: r =>
    (r.takeWhile (· != ']')).all (fun c => safe c || c == ':') &&
    (match r.dropWhile (· != ']') with
     | [_] => true
     | _ :: ':' :: p => digits p
     | _ => false)
  | _ =>
    match lastColon t with
    | some (h, p) => h.all (fun c => safe c || c == ':') && digits p
    | none => t.all safe

/-- net/url `Parse` of an `http` or `https` URL without a path. -/
def parses (t : Text) : Bool :=
  if https.isPrefixOf t then hostOk (t.drop 8) else if http.isPrefixOf t then hostOk (t.drop 7) else false

/-- libcs/web/server/util/browser.go:38-57 (`SwitchToValidWebURL`): `none` is an error. -/
def switchURL (a : Text) (enableHTTPS : Bool) : Option Text :=
  let a := if ':' ∈ a then a else ':' :: a
  let a := if a.head? = some ':' then "localhost".toList ++ a else a
  let a := if http.isPrefixOf a = true ∨ https.isPrefixOf a = true then a else if enableHTTPS then https ++ a else http ++ a
  if parses a then some a else none

/-- The link that is opened in the browser, libcs/server/web/web.go:66-67, 80, libcs/client/web/web.go:64-65: the error is dropped, and
an empty link is opened. The key of a first start is appended to it (C52). -/
def link (c : Cfg) (loads : Bool) : Text :=
  match checkAddr c.addr with
  | some a => (switchURL a (tlsOf c loads == .tls)).getD []
  | none => []

/-- The link to the profiles in the menu, libcs/server/web/service/service.go:141-153, libcs/client/web/service/service.go:142-154. -/
def pprofLink (c : Cfg) : Option Text :=
  match checkAddr c.addr with
  | some a => (switchURL a (!(c.cert == [] && c.key == []))).map (· ++ "/debug/pprof/".toList)
  | none => none

/-! ## Listening -/

/-- What an attempt to listen does: it succeeds (with the free port the system would choose), the port is in use, or another error. -/
inductive Res where
  | ok (free : Nat)
  | inUse
  | err
deriving DecidableEq

/-- The number a text of digits stands for. -/
def value (p : Text) : Nat := p.foldl (fun n c => n * 10 + (c.toNat - '0'.toNat)) 0

/-- Go's `net.Listen` reads a port: a number, a name of the service table `svc`, or nothing for 0. -/
def portNum (svc : Text → Option Nat) (p : Text) : Option Nat :=
  if digits p then (if value p ≤ 65535 then some (value p) else none) else svc p

/-- What `net.Listen` listens on; port 0 is a free one. -/
def bound (svc : Text → Option Nat) (a : Text) (free : Nat) : Option (Text × Nat) :=
  match splitHostPort a with
  | none => none
  | some (h, p) =>
    match portNum svc p with
    | none => none
    | some n => some (h, if n = 0 then free else n)

/-- libcs/server/web/web.go:234-260 (without arguments): a port in use is replaced by a free one. -/
def listenLoop (svc : Text → Option Nat) : Text → List Res → Option (Text × Nat)
  | _, [] => none
  | a, .ok free :: _ => bound svc a free
  | _, .err :: _ => none
  | a, .inUse :: rs =>
    match splitHostPort a with
    | none => none
    | some (h, _) => listenLoop svc (h ++ ":0".toList) rs

/-- A running console. -/
structure Serving where
  tls : Bool
  /-- empty: every address of the machine -/
  host : Text
  port : Nat
deriving DecidableEq

/-- libcs/server/web/web.go:40-83, 225-298 (`NewWebServer`, `start`), the client's the same: `noArgs` is `util.IsNoArgs`. Without
arguments the console is served with `Serve`, whatever the certificates. -/
def start (svc : Text → Option Nat) (noArgs : Bool) (c : Cfg) (loads : Bool) (rs : List Res) : Option Serving :=
  match checkAddr c.addr with
  | none => none
  | some a =>
    if tlsOf c loads = .refused then none
    else if noArgs then (listenLoop svc a rs).map (fun x => ⟨false, x.1, x.2⟩)
    else
      match rs with
      | .ok free :: _ => (bound svc a free).map (fun x => ⟨tlsOf c loads == .tls, x.1, x.2⟩)
      | _ => none

/-- bin/src/cs.rs:155-191 (`run_client`, `run_server`): what the `gt` program passes to the Go part, from its own `-c` option. -/
def goArgs (cmd : Text) (config : Option Text) : List Text :=
  match config with
  | some path => [cmd, "-config".toList, path]
  | none => [cmd]

/-- libcs/util/args.go:14-39 (`init`, `SetArgs`, `IsNoArgs`): `osArgs` is the process' own command line, which has a subcommand
(`gt sub-server`, bin/src/main.rs:55-112). The flag is only ever set. -/
def isNoArgs (osArgs args : List Text) : Bool := decide (osArgs.length ≤ 1) || decide (args.length ≤ 1)

/-! ## Specification -/

/-- The link `url` leads to the console `s`: it names the protocol that is spoken, the host (this machine if every address will do) and
the port, in digits. -/
def Leads (url : Text) (s : Serving) : Prop :=
  ∃ h p : Text, url = (if s.tls then "https://".toList else "http://".toList) ++ h ++ ':' :: p ∧
    digits p = true ∧ p ≠ [] ∧ value p = s.port ∧
    (h = s.host ∧ h ≠ [] ∧ ':' ∉ h ∨ h = '[' :: s.host ++ [']'] ∨ h = "localhost".toList ∧ s.host = [])

/-- An address as users write it, with host `h` and port `p`: `8000`, `:8000`, `localhost:8000`, `127.0.0.1:8000` or `[::1]:8000`. -/
inductive Written : Text → Text → Prop where
  | port (p : Text) (hd : digits p = true) (hp : p ≠ []) (h0 : 0 < value p) : Written p p
  | host (h p : Text) (hs : h.all safe = true) (hd : digits p = true) (hp : p ≠ []) (h0 : 0 < value p) : Written (h ++ ':' :: p) p
  | v6 (h p : Text) (hs : h.all (fun c => safe c || c == ':') = true) (hc : ':' ∈ h) (hd : digits p = true) (hp : p ≠ [])
      (h0 : 0 < value p) : Written ('[' :: h ++ ']' :: ':' :: p) p

/-! ## Proofs -/

theorem not_safe {h : Text} {c : Char} (hs : h.all safe = true) (hc : safe c = false) : c ∉ h := by
  intro hm
  have := List.all_eq_true.1 hs c hm
  rw [hc] at this; cases this

theorem not_digit {h : Text} {c : Char} (hs : digits h = true) (hc : (decide ('0' ≤ c) && decide (c ≤ '9')) = false) : c ∉ h := by
  intro hm
  have := List.all_eq_true.1 hs c hm
  rw [hc] at this; cases this

theorem prefix_cases (h p : Text) (hc : ':' ∉ h) (hd : digits p = true) : http.isPrefixOf (h ++ ':' :: p) = false ∧
    https.isPrefixOf (h ++ ':' :: p) = false := by
  have key : ∀ (pre : Text) , ':' ∉ pre → (pre ++ "://".toList).isPrefixOf (h ++ ':' :: p) = false := by
    intro pre hpre
    rw [← Bool.not_eq_true]
    intro hx
    rw [List.isPrefixOf_iff_prefix] at hx
    obtain ⟨t, ht⟩ := hx
    have e1 : (pre ++ "://".toList ++ t).takeWhile (· != ':') = pre := by
      have : pre ++ "://".toList ++ t = pre ++ ':' :: ('/' :: '/' :: t) := by simp
      rw [this, List.takeWhile_append_of_pos (by intro a ha; simp; rintro rfl; exact hpre ha)]
      simp
    have e2 : (h ++ ':' :: p).takeWhile (· != ':') = h := by
      rw [List.takeWhile_append_of_pos (by intro a ha; simp; rintro rfl; exact hc ha)]
      simp
    rw [ht, e2] at e1
    subst e1
    simp at ht
    have : '/' ∈ p := by rw [← ht]; simp
    exact not_digit hd (by decide) this
  exact ⟨key "http".toList (by decide), key "https".toList (by decide)⟩

theorem split_host (h p : Text) (hs : h.all safe = true) (hd : digits p = true) : splitHostPort (h ++ ':' :: p) = some (h, p) := by
  have h1 : ':' ∉ h := not_safe hs (by decide)
  have h2 : '[' ∉ h := not_safe hs (by decide)
  have h3 : ']' ∉ h := not_safe hs (by decide)
  have p2 : '[' ∉ p := not_digit hd (by decide)
  have p3 : ']' ∉ p := not_digit hd (by decide)
  have hl := lastColon_at h p (digits_no_colon p hd)
  unfold splitHostPort
  split
  · rename_i r hx
    cases h with
    | nil => simp at hx
    | cons c h => simp at hx; exact absurd (by rw [hx.1]; simp) h2
  · rw [hl]
    simp only
    rw [if_neg]
    simp only [List.contains_eq_mem, decide_eq_true_eq]
    rintro (hx | hx | hx | hx | hx)
    · exact h1 hx
    · exact h2 hx
    · exact h3 hx
    · exact p2 hx
    · exact p3 hx

theorem take_v6 (h rest : Text) (hs : h.all (fun c => safe c || c == ':') = true) :
    (h ++ ']' :: rest).takeWhile (· != ']') = h ∧ (h ++ ']' :: rest).dropWhile (· != ']') = ']' :: rest := by
  have h1 : ∀ a ∈ h, (a != ']') = true := by
    intro a ha
    have := List.all_eq_true.1 hs a ha
    simp only [bne_iff_ne]
    rintro rfl
    revert this; decide
  refine ⟨?_, ?_⟩
  · rw [List.takeWhile_append_of_pos h1]; simp
  · rw [List.dropWhile_append_of_pos h1]; simp

theorem split_v6 (h p : Text) (hs : h.all (fun c => safe c || c == ':') = true) (hd : digits p = true) :
    splitHostPort ('[' :: h ++ ']' :: ':' :: p) = some (h, p) := by
  have h2 : '[' ∉ h := by
    intro hm; have := List.all_eq_true.1 hs _ hm; revert this; decide
  have p1 : ':' ∉ p := digits_no_colon p hd
  have p2 : '[' ∉ p := not_digit hd (by decide)
  have p3 : ']' ∉ p := not_digit hd (by decide)
  obtain ⟨e1, e2⟩ := take_v6 h (':' :: p) hs
  show splitHostPort ('[' :: (h ++ ']' :: ':' :: p)) = _
  simp only [splitHostPort, e1, e2]
  rw [if_neg]
  simp only [List.contains_eq_mem, decide_eq_true_eq]
  rintro (hx | hx | hx | hx)
  · exact p1 hx
  · exact h2 hx
  · exact p2 hx
  · exact p3 hx

theorem parses_http (x : Text) : parses (http ++ x) = hostOk x := rfl
theorem parses_https (x : Text) : parses (https ++ x) = hostOk x := rfl

theorem hostOk_host (h p : Text) (hs : h.all safe = true) (hd : digits p = true) : hostOk (h ++ ':' :: p) = true := by
  have h2 : '[' ∉ h := not_safe hs (by decide)
  have hl := lastColon_at h p (digits_no_colon p hd)
  unfold hostOk
  split
  · rename_i r hx
    cases h with
    | nil => simp at hx
    | cons c h => simp at hx; exact absurd (by rw [hx.1]; simp) h2
  · rw [hl]
    simp only [hd, Bool.and_true, List.all_eq_true, Bool.or_eq_true]
    intro a ha
    exact Or.inl (List.all_eq_true.1 hs a ha)

theorem hostOk_v6 (h p : Text) (hs : h.all (fun c => safe c || c == ':') = true) (hd : digits p = true) :
    hostOk ('[' :: h ++ ']' :: ':' :: p) = true := by
  obtain ⟨e1, e2⟩ := take_v6 h (':' :: p) hs
  show hostOk ('[' :: (h ++ ']' :: ':' :: p)) = _
  simp only [hostOk, e1, e2, hs, hd, Bool.and_true]

/-- The prefix of a link. -/
def scheme (tls : Bool) : Text := if tls then "https://".toList else "http://".toList

theorem switch_plain (a : Text) (tls : Bool) (hc : ':' ∈ a) (hh : a.head? ≠ some ':') (h1 : http.isPrefixOf a = false)
    (h2 : https.isPrefixOf a = false) (hok : hostOk a = true) : switchURL a tls = some (scheme tls ++ a) := by
  unfold switchURL
  simp only [if_pos hc, if_neg hh, h1, h2]
  simp only [Bool.false_eq_true, or_self, if_false]
  cases tls
  · simp only [Bool.false_eq_true, if_false, parses_http, hok, if_true]; rfl
  · simp only [if_true, parses_https, hok]; rfl

theorem switch_host (h p : Text) (tls : Bool) (hs : h.all safe = true) (hne : h ≠ []) (hd : digits p = true) :
    switchURL (h ++ ':' :: p) tls = some (scheme tls ++ (h ++ ':' :: p)) := by
  have h1 : ':' ∉ h := not_safe hs (by decide)
  obtain ⟨e1, e2⟩ := prefix_cases h p h1 hd
  refine switch_plain _ tls (by simp) ?_ e1 e2 (hostOk_host h p hs hd)
  cases h with
  | nil => exact absurd rfl hne
  | cons c h => simp; rintro rfl; simp at h1

theorem switch_port (p : Text) (tls : Bool) (hd : digits p = true) :
    switchURL (':' :: p) tls = some (scheme tls ++ ("localhost".toList ++ ':' :: p)) := by
  have := switch_host "localhost".toList p tls (by decide) (by decide) hd
  rw [← this]
  rfl

theorem switch_v6 (h p : Text) (tls : Bool) (hs : h.all (fun c => safe c || c == ':') = true) (hd : digits p = true) :
    switchURL ('[' :: h ++ ']' :: ':' :: p) tls = some (scheme tls ++ ('[' :: h ++ ']' :: ':' :: p)) :=
  switch_plain _ tls (by simp) (by simp) rfl rfl (hostOk_v6 h p hs hd)

/-- What a written address means: how it is checked, where it leads and what it listens on. -/
theorem written (a p : Text) (w : Written a p) : digits p = true ∧ p ≠ [] ∧ 0 < value p ∧ ∃ b h host : Text, checkAddr a = some b ∧
    splitHostPort b = some (host, p) ∧ (∀ tls, switchURL b tls = some (scheme tls ++ (h ++ ':' :: p))) ∧
    (h = host ∧ h ≠ [] ∧ ':' ∉ h ∨ h = '[' :: host ++ [']'] ∧ ':' ∈ host ∨ h = "localhost".toList ∧ host = []) := by
  cases w with
  | port _ hd hp h0 =>
    refine ⟨hd, hp, h0, ':' :: a, "localhost".toList, [], ?_, split_host [] a rfl hd, fun t => switch_port a t hd, ?_⟩
    · rw [checkAddr, if_neg hp, if_neg (digits_no_colon a hd)]
    · exact Or.inr (Or.inr ⟨rfl, rfl⟩)
  | host h p hs hd hp h0 =>
    by_cases hne : h = []
    · subst hne
      exact ⟨hd, hp, h0, ':' :: p, "localhost".toList, [], by simp [checkAddr], split_host [] p rfl hd, fun t => switch_port p t hd,
        Or.inr (Or.inr ⟨rfl, rfl⟩)⟩
    · exact ⟨hd, hp, h0, h ++ ':' :: p, h, h, by simp [checkAddr], split_host h p hs hd, fun t => switch_host h p t hs hne hd,
        Or.inl ⟨rfl, hne, not_safe hs (by decide)⟩⟩
  | v6 h p hs hc hd hp h0 =>
    refine ⟨hd, hp, h0, '[' :: h ++ ']' :: ':' :: p, '[' :: h ++ [']'], h, by simp [checkAddr], split_v6 h p hs hd, fun t => ?_,
      Or.inr (Or.inl ⟨rfl, hc⟩)⟩
    rw [switch_v6 h p t hs hd]; simp

theorem bound_written {svc : Text → Option Nat} {b host p : Text} {free : Nat} {x : Text × Nat} (hb : splitHostPort b = some (host, p))
    (hd : digits p = true) (h0 : 0 < value p) (h : bound svc b free = some x) : x = (host, value p) := by
  unfold bound at h
  rw [hb] at h
  simp only [portNum, hd, if_true] at h
  by_cases hv : value p ≤ 65535
  · rw [if_pos hv] at h
    simp only [Option.some.injEq] at h
    rw [← h, if_neg (by omega)]
  · rw [if_neg hv] at h; cases h

theorem https_iff (c : Cfg) (loads : Bool) (h : tlsOf c loads ≠ .refused) : (tlsOf c loads == .tls) = !(c.cert == [] && c.key == []) := by
  unfold tlsOf at *
  by_cases e : c.cert = [] ∧ c.key = []
  · rw [if_pos e]; simp [e.1, e.2]
  · rw [if_neg e] at *
    have e' : (c.cert == [] && c.key == []) = false := by
      rw [← Bool.not_eq_true]; intro hx; simp at hx; exact e hx
    rw [e']
    by_cases a : c.cert = "auto".toList ∧ c.key = "auto".toList
    · rw [if_pos a]; rfl
    · rw [if_neg a] at *
      cases loads
      · exact absurd rfl h
      · rfl

/-- **The links lead to the console**: whenever it runs on an address with a port, the link that is opened in the browser names the
protocol, the host and the port, and the profiles are below it. Partial: without arguments only if no certificate is configured and the
port was free (`certificate_dropped`, `busy_port_wrong_link`). -/
theorem link_leads_partial (svc : Text → Option Nat) (noArgs : Bool) (c : Cfg) (loads : Bool) (rs : List Res) (s : Serving) (p : Text)
    (w : Written c.addr p) (hs : start svc noArgs c loads rs = some s)
    (hn : noArgs = true → c.cert = [] ∧ c.key = [] ∧ rs.head? ≠ some .inUse) :
    Leads (link c loads) s ∧ pprofLink c = some (link c loads ++ "/debug/pprof/".toList) := by
  obtain ⟨hd, hp, h0, b, h, host, e1, e2, e3, e4⟩ := written c.addr p w
  unfold start at hs
  rw [e1] at hs
  simp only at hs
  by_cases hr : tlsOf c loads = .refused
  · rw [if_pos hr] at hs; cases hs
  rw [if_neg hr] at hs
  have hlink : link c loads = scheme (tlsOf c loads == .tls) ++ (h ++ ':' :: p) := by
    unfold link; rw [e1]; simp only [e3, Option.getD_some]
  have hserve : s.host = host ∧ s.port = value p ∧ s.tls = (tlsOf c loads == .tls) := by
    by_cases hna : noArgs = true
    · obtain ⟨c1, c2, c3⟩ := hn hna
      rw [if_pos hna] at hs
      have ht : (tlsOf c loads == .tls) = false := by rw [https_iff c loads hr, c1, c2]; rfl
      rw [ht]
      match rs with
      | [] => simp [listenLoop] at hs
      | .err :: _ => simp [listenLoop] at hs
      | .inUse :: _ => simp at c3
      | .ok free :: _ =>
        simp only [listenLoop, Option.map_eq_some_iff] at hs
        obtain ⟨x, hx, rfl⟩ := hs
        rw [bound_written e2 hd h0 hx]
        exact ⟨rfl, rfl, rfl⟩
    · rw [if_neg hna] at hs
      match rs with
      | [] => simp at hs
      | .err :: _ => simp at hs
      | .inUse :: _ => simp at hs
      | .ok free :: _ =>
        simp only [Option.map_eq_some_iff] at hs
        obtain ⟨x, hx, rfl⟩ := hs
        rw [bound_written e2 hd h0 hx]
        exact ⟨rfl, rfl, rfl⟩
  refine ⟨⟨h, p, ?_, hd, hp, hserve.2.1.symm, ?_⟩, ?_⟩
  · rw [hlink, hserve.2.2]
    exact (List.append_assoc _ _ _).symm
  · rw [hserve.1]
    rcases e4 with e | e | e
    · exact Or.inl e
    · exact Or.inr (Or.inl e.1)
    · exact Or.inr (Or.inr e)
  · unfold pprofLink
    rw [e1]
    simp only [e3, Option.map_some, hlink, https_iff c loads hr]

/-- **TLS exactly if it is configured** (with arguments): a console that runs speaks TLS if and only if one of the certificate options is
set; in particular a certificate that cannot be loaded, or only half of one, never leads to a console in plain text. -/
theorem tls_iff_configured_partial (svc : Text → Option Nat) (c : Cfg) (loads : Bool) (rs : List Res) (s : Serving)
    (hs : start svc false c loads rs = some s) : (s.tls = true ↔ c.cert ≠ [] ∨ c.key ≠ []) ∧
    (s.tls = true → loads = true ∨ c.cert = "auto".toList ∧ c.key = "auto".toList) := by
  unfold start at hs
  match hb : checkAddr c.addr with
  | none => rw [hb] at hs; cases hs
  | some b =>
    rw [hb] at hs
    simp only [Bool.false_eq_true, if_false] at hs
    by_cases hr : tlsOf c loads = .refused
    · rw [if_pos hr] at hs; cases hs
    rw [if_neg hr] at hs
    match rs with
    | [] => simp at hs
    | .err :: _ => simp at hs
    | .inUse :: _ => simp at hs
    | .ok free :: _ =>
      simp only [Option.map_eq_some_iff] at hs
      obtain ⟨x, hx, rfl⟩ := hs
      refine ⟨?_, ?_⟩
      · simp only [https_iff c loads hr]
        by_cases h1 : c.cert = []
        · by_cases h2 : c.key = [] <;> simp [h1, h2]
        · simp [h1]
      · intro ht
        simp only [beq_iff_eq] at ht
        unfold tlsOf at ht
        by_cases e : c.cert = [] ∧ c.key = []
        · rw [if_pos e] at ht; cases ht
        · rw [if_neg e] at ht
          by_cases a : c.cert = "auto".toList ∧ c.key = "auto".toList
          · exact Or.inr a
          · rw [if_neg a] at ht
            cases loads
            · simp at ht
            · exact Or.inl rfl

/-- **Without arguments the certificates are dropped**: the console answers in plain text whatever is configured, while its link names
`https`, so that it does not lead there. -/
theorem certificate_dropped (svc : Text → Option Nat) (c : Cfg) (loads : Bool) (rs : List Res) (s : Serving) (p : Text)
    (w : Written c.addr p) (hs : start svc true c loads rs = some s) (hc : c.cert ≠ [] ∨ c.key ≠ []) :
    s.tls = false ∧ "https://".toList <+: link c loads ∧ ¬ Leads (link c loads) s := by
  obtain ⟨hd, hp, h0, b, h, host, e1, e2, e3, e4⟩ := written c.addr p w
  unfold start at hs
  rw [e1] at hs
  simp only [if_true] at hs
  by_cases hr : tlsOf c loads = .refused
  · rw [if_pos hr] at hs; cases hs
  rw [if_neg hr] at hs
  simp only [Option.map_eq_some_iff] at hs
  obtain ⟨x, hx, rfl⟩ := hs
  have ht : (tlsOf c loads == .tls) = true := by
    rw [https_iff c loads hr]
    rcases hc with e | e <;> simp [e]
  have hlink : link c loads = "https://".toList ++ (h ++ ':' :: p) := by
    unfold link; rw [e1]; simp only [e3, Option.getD_some, ht, scheme, if_true]
  refine ⟨rfl, ⟨_, hlink.symm⟩, ?_⟩
  rintro ⟨h', p', hu, -⟩
  rw [hlink] at hu
  simp at hu

/-- **The `gt` program runs the console without arguments exactly if it is started without `-c`**, so that a server or client that is
configured through the web pages alone never speaks TLS, whatever certificates are saved. -/
theorem no_config_no_tls (svc : Text → Option Nat) (c : Cfg) (loads : Bool) (rs : List Res) (s : Serving) (exe sub cmd : Text)
    (more : List Text) (config : Option Text) :
    (isNoArgs (exe :: sub :: more) (goArgs cmd config) = true ↔ config = none) ∧
    (config = none → start svc (isNoArgs (exe :: sub :: more) (goArgs cmd config)) c loads rs = some s → s.tls = false) := by
  have e : isNoArgs (exe :: sub :: more) (goArgs cmd config) = true ↔ config = none := by
    cases config <;> simp [isNoArgs, goArgs]
  refine ⟨e, fun hc hs => ?_⟩
  rw [e.2 hc] at hs
  unfold start at hs
  match hb : checkAddr c.addr with
  | none => rw [hb] at hs; cases hs
  | some b =>
    rw [hb] at hs
    simp only [if_true] at hs
    by_cases hr : tlsOf c loads = .refused
    · rw [if_pos hr] at hs; cases hs
    rw [if_neg hr] at hs
    simp only [Option.map_eq_some_iff] at hs
    obtain ⟨x, hx, rfl⟩ := hs
    rfl

/-- **Without arguments a port that is in use is replaced, but the link still names it**: it leads to whoever uses the port. -/
theorem busy_port_wrong_link (svc : Text → Option Nat) (c : Cfg) (loads : Bool) (h p : Text) (free : Nat) (rest : List Res)
    (hs : h.all safe = true) (hd : digits p = true) (ha : c.addr = h ++ ':' :: p) (hc : c.cert = [] ∧ c.key = []) (hf : free ≠ value p) :
    start svc true c loads (.inUse :: .ok free :: rest) = some ⟨false, h, free⟩ ∧ ¬ Leads (link c loads) ⟨false, h, free⟩ := by
  have ht : tlsOf c loads = .plain := by unfold tlsOf; rw [if_pos hc]
  have ec : checkAddr (h ++ ':' :: p) = some (h ++ ':' :: p) := by simp [checkAddr]
  have e0 : splitHostPort (h ++ ":0".toList) = some (h, ['0']) := split_host h ['0'] hs rfl
  have hl : ∃ h', link c loads = "http://".toList ++ (h' ++ ':' :: p) := by
    by_cases hne : h = []
    · subst hne
      exact ⟨"localhost".toList, by unfold link; rw [ha, ec]; simp only [List.nil_append, switch_port p _ hd, ht]; rfl⟩
    · exact ⟨h, by unfold link; rw [ha, ec]; simp only [switch_host h p _ hs hne hd, ht]; rfl⟩
  refine ⟨?_, ?_⟩
  · unfold start
    rw [ha, ec]
    simp only [ht, if_true, listenLoop, split_host h p hs hd, bound, e0]
    simp [portNum, digits, value]
  · obtain ⟨h', hl⟩ := hl
    rintro ⟨h2, p2, hu, hd2, hp2, hv, -⟩
    rw [hl] at hu
    simp at hu
    have a1 := lastColon_at h' p (digits_no_colon p hd)
    have a2 := lastColon_at h2 p2 (digits_no_colon p2 hd2)
    rw [hu, a2] at a1
    simp at a1
    rw [a1.2] at hv
    exact hf hv.symm

/-- **Without arguments a console on an IPv6 address whose port is in use does not start**, whatever is free: the brackets are lost. -/
theorem busy_v6_never (svc : Text → Option Nat) (c : Cfg) (loads : Bool) (h p : Text) (rs : List Res)
    (hs : h.all (fun c => safe c || c == ':') = true) (hc : ':' ∈ h) (hd : digits p = true)
    (ha : c.addr = '[' :: h ++ ']' :: ':' :: p) : start svc true c loads (.inUse :: rs) = none := by
  have ec : checkAddr c.addr = some c.addr := by
    rw [ha]; simp [checkAddr]
  have e0 : splitHostPort (h ++ ":0".toList) = none := by
    have hl := lastColon_at h ['0'] (by decide)
    have h2 : '[' ∉ h := by
      intro hm; have := List.all_eq_true.1 hs _ hm; revert this; decide
    show splitHostPort (h ++ ':' :: ['0']) = none
    unfold splitHostPort
    split
    · rename_i r hx
      cases h with
      | nil => simp at hx
      | cons c h => simp at hx; exact absurd (by rw [hx.1]; simp) h2
    · rw [hl]
      simp only
      rw [if_pos]
      left; simpa using hc
  have e1 : listenLoop svc (h ++ ":0".toList) rs = none := by
    match rs with
    | [] => rfl
    | .err :: _ => rfl
    | .ok _ :: _ => simp only [listenLoop, bound, e0]
    | .inUse :: _ => simp only [listenLoop, e0]
  unfold start
  rw [ec]
  simp only [if_true]
  by_cases hr : tlsOf c loads = .refused
  · rw [if_pos hr]
  · rw [if_neg hr]
    simp only [listenLoop]
    rw [ha, split_v6 h p hs hd]
    simp only [e1, Option.map_none]

/-- **A port of the service table has no link**: the console runs (`:http-alt` is 8080), but an empty link is opened and the profiles
are not in the menu. -/
theorem service_name_no_link (svc : Text → Option Nat) (c : Cfg) (loads : Bool) (h p : Text) (free n : Nat) (hs : h.all safe = true)
    (hp : p.all safe = true) (hd : digits p = false) (ha : c.addr = h ++ ':' :: p) (hv : svc p = some n) (hn : n ≠ 0)
    (ht : tlsOf c loads = .plain) (hq : http.isPrefixOf c.addr = false ∧ https.isPrefixOf c.addr = false) :
    start svc false c loads [.ok free] = some ⟨false, h, n⟩ ∧ link c loads = [] := by
  have h1 : ':' ∉ h := not_safe hs (by decide)
  have h2 : '[' ∉ h := not_safe hs (by decide)
  have h3 : ']' ∉ h := not_safe hs (by decide)
  have p1 : ':' ∉ p := not_safe hp (by decide)
  have p2 : '[' ∉ p := not_safe hp (by decide)
  have p3 : ']' ∉ p := not_safe hp (by decide)
  have hl := lastColon_at h p p1
  have ec : checkAddr (h ++ ':' :: p) = some (h ++ ':' :: p) := by simp [checkAddr]
  have es : splitHostPort (h ++ ':' :: p) = some (h, p) := by
    unfold splitHostPort
    split
    · rename_i r hx
      cases h with
      | nil => simp at hx
      | cons c h => simp at hx; exact absurd (by rw [hx.1]; simp) h2
    · rw [hl]
      simp only
      rw [if_neg]
      simp only [List.contains_eq_mem, decide_eq_true_eq]
      rintro (hx | hx | hx | hx | hx)
      · exact h1 hx
      · exact h2 hx
      · exact h3 hx
      · exact p2 hx
      · exact p3 hx
  have ok : ∀ g : Text, '[' ∉ g → hostOk (g ++ ':' :: p) = false := by
    intro g hg
    unfold hostOk
    split
    · rename_i r hx
      cases g with
      | nil => simp at hx
      | cons c g => simp at hx; exact absurd (by rw [hx.1]; simp) hg
    · rw [lastColon_at g p p1]
      simp [hd]
  refine ⟨?_, ?_⟩
  · unfold start
    rw [ha, ec]
    simp [ht, bound, es, portNum, hd, hv, hn]
  · unfold link
    rw [ha, ec]
    simp only [ht]
    rw [ha] at hq
    by_cases hne : h = []
    · subst hne
      have := ok "localhost".toList (by decide)
      have e : switchURL (':' :: p) false = if parses (http ++ ("localhost".toList ++ ':' :: p)) then some (http ++ ("localhost".toList ++ ':' :: p)) else none := rfl
      simp only [List.nil_append]
      show (switchURL (':' :: p) false).getD [] = []
      rw [e, parses_http, this]; rfl
    · show (switchURL (h ++ ':' :: p) false).getD [] = []
      have hh : (h ++ ':' :: p).head? ≠ some ':' := by
        cases h with
        | nil => exact absurd rfl hne
        | cons c h => simp; rintro rfl; simp at h1
      unfold switchURL
      simp only [if_pos (show ':' ∈ h ++ ':' :: p by simp), if_neg hh, hq.1, hq.2]
      simp [parses_http, ok h h2]

/-- **A free port (0) has no link**: the console runs on some port, but the link names port 0. -/
theorem port_zero_wrong (svc : Text → Option Nat) (c : Cfg) (loads : Bool) (h p : Text) (free : Nat) (hs : h.all safe = true)
    (hd : digits p = true) (hv : value p = 0) (ha : c.addr = h ++ ':' :: p) (hc : c.cert = [] ∧ c.key = []) (hf : free ≠ 0) :
    start svc false c loads [.ok free] = some ⟨false, h, free⟩ ∧ ¬ Leads (link c loads) ⟨false, h, free⟩ := by
  have ht : tlsOf c loads = .plain := by unfold tlsOf; rw [if_pos hc]
  have ec : checkAddr (h ++ ':' :: p) = some (h ++ ':' :: p) := by simp [checkAddr]
  have hl : ∃ h', link c loads = "http://".toList ++ (h' ++ ':' :: p) := by
    by_cases hne : h = []
    · subst hne
      exact ⟨"localhost".toList, by unfold link; rw [ha, ec]; simp only [List.nil_append, switch_port p _ hd, ht]; rfl⟩
    · exact ⟨h, by unfold link; rw [ha, ec]; simp only [switch_host h p _ hs hne hd, ht]; rfl⟩
  refine ⟨?_, ?_⟩
  · unfold start
    rw [ha, ec]
    simp [ht, bound, split_host h p hs hd, portNum, hd, hv]
  · obtain ⟨h', hl⟩ := hl
    rintro ⟨h2, p2, hu, hd2, hp2, hq, -⟩
    rw [hl] at hu
    simp at hu
    have a1 := lastColon_at h' p (digits_no_colon p hd)
    have a2 := lastColon_at h2 p2 (digits_no_colon p2 hd2)
    rw [hu, a2] at a1
    simp at a1
    rw [a1.2] at hq
    exact hf (by rw [← hv]; exact hq.symm)

/-! ## Concrete cases -/

/-- With arguments: `8000` and certificates that load. -/
example : start (fun _ => none) false ⟨"8000".toList, "c".toList, "k".toList⟩ true [.ok 5] = some ⟨true, [], 8000⟩ ∧
    link ⟨"8000".toList, "c".toList, "k".toList⟩ true = "https://localhost:8000".toList ∧
    pprofLink ⟨"8000".toList, "c".toList, "k".toList⟩ = some "https://localhost:8000/debug/pprof/".toList := by decide +kernel

example : start (fun _ => none) false ⟨"[::1]:8000".toList, [], []⟩ true [.ok 5] = some ⟨false, "::1".toList, 8000⟩ ∧
    link ⟨"[::1]:8000".toList, [], []⟩ true = "http://[::1]:8000".toList := by decide +kernel

/-- Without arguments: the configuration file names certificates, and the console is served in plain text. -/
example : start (fun _ => none) true ⟨"127.0.0.1:8000".toList, "auto".toList, "auto".toList⟩ false [.ok 5] =
    some ⟨false, "127.0.0.1".toList, 8000⟩ ∧
    link ⟨"127.0.0.1:8000".toList, "auto".toList, "auto".toList⟩ false = "https://127.0.0.1:8000".toList := by decide +kernel

/-- One certificate file is missing, or only one of the two is automatic: no console. -/
example : start (fun _ => none) false ⟨"8000".toList, "auto".toList, []⟩ false [.ok 5] = none := by decide +kernel

example : Written "127.0.0.1:8000".toList "8000".toList :=
  .host "127.0.0.1".toList "8000".toList (by decide +kernel) (by decide +kernel) (by decide) (by decide +kernel)

example : start (fun t => if t = "http-alt".toList then some 8080 else none) false ⟨":http-alt".toList, [], []⟩ true [.ok 5] =
    some ⟨false, [], 8080⟩ ∧ link ⟨":http-alt".toList, [], []⟩ true = [] := by decide +kernel

end Verif.Web.Link
