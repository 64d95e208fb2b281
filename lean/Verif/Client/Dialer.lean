import Verif.Common
set_option linter.unusedSimpArgs false
set_option linter.unusedVariables false
/-!
# C105, C106: from configured remotes to connections (libcs/client/client.go:214-416, 463-495, 518-545)

Remote URLs are a scheme and the text of the host part (Go's `url.URL.Scheme` and `.Host`; paths, queries and user information are not
modelled). The functions of `net/url` and `net` that take host texts apart are modelled as they are written in the standard library.
-/
namespace Verif.Client.Dialer

abbrev Text := List Char

inductive Scheme where
  | tls | tcp | quic
  /-- anything else -/
  | other
deriving DecidableEq, Repr

/-! ## Standard library: host texts -/

/-- The text before and after the last colon. -/
def lastColon : Text → Option (Text × Text)
  | [] => none
  | c :: cs =>
    match lastColon cs with
    | some (a, b) => some (c :: a, b)
    | none => if c = ':' then some ([], cs) else none

def digits (t : Text) : Bool := t.all (fun c => decide ('0' ≤ c) && decide (c ≤ '9'))

/-- net/url `splitHostPort`: brackets are removed from the host. -/
def splitHost (t : Text) : Text × Text :=
  let strip (h : Text) : Text := if h.head? = some '[' ∧ h.getLast? = some ']' ∧ 2 ≤ h.length then (h.drop 1).dropLast else h
  match lastColon t with
  | some (h, p) => if digits p then (strip h, p) else (strip t, [])
  | none => (strip t, [])

def hostname (t : Text) : Text := (splitHost t).1
def port (t : Text) : Text := (splitHost t).2

/-- `net.JoinHostPort`. -/
def joinHostPort (h p : Text) : Text := if h.contains ':' then '[' :: h ++ [']', ':'] ++ p else h ++ ':' :: p

/-- `net.SplitHostPort` (what dialling does with an address): `none` is an error. -/
def splitHostPort (t : Text) : Option (Text × Text) :=
  match t with
  | '[' :: r =>
    -- up to the first closing bracket, which a colon must follow
    let h := r.takeWhile (· != ']')
    match r.dropWhile (· != ']') with
    | _ :: ':' :: p => if p.contains ':' ∨ h.contains '[' ∨ p.contains '[' ∨ p.contains ']' then none else some (h, p)
    | _ => none
  | _ =>
    match lastColon t with
    | some (h, p) => if h.contains ':' ∨ h.contains '[' ∨ h.contains ']' ∨ p.contains '[' ∨ p.contains ']' then none else some (h, p)
    | none => none

/-! ## The client -/

/-- One `-remote` option after libcs/client/client.go:387-391: without `://` it is `tcp://`. -/
structure Remote where
  scheme : Scheme
  host : Text
deriving DecidableEq, Repr

/-- How the certificate of a server is checked: the roots from the file (if given), and whether it is checked at all. -/
structure Tls where
  roots : Option Nat
  insecure : Bool
deriving DecidableEq, Repr

/-- The options used here. `certFile = some none` is a file that cannot be read or parsed. -/
structure Cfg where
  certFile : Option (Option Nat) := none
  insecure : Bool := false
  bbr : Bool := false
deriving DecidableEq, Repr

/-- libcs/client/client.go:214-223. -/
structure D where
  tcp : Text := []
  tls : Text := []
  quic : Text := []
  bbr : Bool := false
  preferQuic : Bool := false
  conf : Option Tls := none
deriving DecidableEq, Repr

/-- libcs/client/client.go:250-252, 275-277, 280-282: the default port. -/
def withPort (t dflt : Text) : Text := if port t = [] then joinHostPort t dflt else t

/-- libcs/client/client.go:253-269, 283-299: the certificate options; `none` is an error. -/
def tlsOf (cfg : Cfg) : Option Tls :=
  match cfg.certFile with
  | none => some ⟨none, cfg.insecure⟩
  | some none => none
  | some (some r) => some ⟨some r, cfg.insecure⟩

/-- libcs/client/client.go:239-308 `init`: one remote after the other. `e` is the error of the previous pass: parsing the next remote overwrites it. -/
def initLoop (cfg : Cfg) : D → Bool → List Remote → Option D
  | d, e, [] => if e then none else some d
  | d, _, r :: rs =>
    match r.scheme with
    | .tls =>
      match tlsOf cfg with
      | none => none
      | some c => initLoop cfg { d with tls := withPort r.host "443".toList, conf := some c } false rs
    | .tcp => initLoop cfg { d with tcp := withPort r.host "80".toList } false rs
    | .quic =>
      match tlsOf cfg with
      | none => none
      | some c => initLoop cfg { d with quic := withPort r.host "443".toList, conf := some c } false rs
    | .other => initLoop cfg d true rs

def initDialer (cfg : Cfg) (rs : List Remote) : Option D := initLoop cfg {} false rs

/-- The hostnames, each once. (The code ranges over a map: in any order.) -/
def hostnames : List Remote → List Text
  | [] => []
  | r :: rs => hostname r.host :: (hostnames rs).filter (fun h => h != hostname r.host)

/-- The remotes of one hostname, in the order given (libcs/client/client.go:396-403). -/
def group (rs : List Remote) (h : Text) : List Remote := rs.filter (fun r => hostname r.host == h)

/-- libcs/client/client.go:385-415 `processRemotes`: all or nothing. -/
def processAll (cfg : Cfg) (rs : List Remote) : List Text → Option (List (Text × D))
  | [] => some []
  | h :: hs =>
    match initDialer cfg (group rs h), processAll cfg rs hs with
    | some d, some ds => some ((h, d) :: ds)
    | _, _ => none

def processRemotes (cfg : Cfg) (rs : List Remote) : Option (List (Text × D)) := processAll cfg rs (hostnames rs)

/-- A connection attempt: the transport, the address, and how the certificate is checked. -/
inductive Via where
  | tls (addr : Text) (conf : Option Tls)
  | quic (addr : Text) (conf : Option Tls)
  | msquic (addr : Text) (conf : Option Tls)
  | tcp (addr : Text)
  | nothing
deriving DecidableEq, Repr

/-- libcs/client/client.go:367-383 `dial`. -/
def dial (d : D) : Via :=
  if d.preferQuic = false ∧ d.tls ≠ [] then .tls d.tls d.conf
  else if d.quic ≠ [] then (if d.bbr then .msquic d.quic d.conf else .quic d.quic d.conf)
  else if d.tcp ≠ [] then .tcp d.tcp
  else .nothing

/-! ## Specification -/

/-- A name or an IPv4 address, without a port. -/
structure Plain (n : Text) : Prop where
  colon : ':' ∉ n
  opening : '[' ∉ n
  closing : ']' ∉ n
  ne : n ≠ []

/-- The last remote of scheme `s`. -/
def lastOf (s : Scheme) (rs : List Remote) : Option Remote := (rs.filter (fun r => r.scheme == s)).getLast?

/-! ## Host texts -/

theorem lastColon_none : ∀ (t : Text), ':' ∉ t → lastColon t = none := by
  intro t
  induction t with
  | nil => intro _; rfl
  | cons c t ih =>
    intro h
    simp only [List.mem_cons, not_or] at h
    simp only [lastColon, ih h.2]
    rw [if_neg (fun hx => h.1 hx.symm)]

theorem lastColon_at : ∀ (n p : Text), ':' ∉ p → lastColon (n ++ ':' :: p) = some (n, p) := by
  intro n p hp
  induction n with
  | nil => simp [lastColon, lastColon_none p hp]
  | cons c n ih => simp only [List.cons_append, lastColon, ih]

theorem digits_no_colon (p : Text) (h : digits p = true) : ':' ∉ p := by
  intro hm
  have := List.all_eq_true.1 h ':' hm
  revert this; decide

theorem contains_false {c : Char} {t : Text} (h : c ∉ t) : t.contains c = false := by simpa using h

/-- **A name without a port gets the default port**, and dialling reads it as that name and that port. -/
theorem default_port (n dflt : Text) (hw : Plain n) (hd : digits dflt = true) :
    splitHostPort (withPort n dflt) = some (n, dflt) := by
  obtain ⟨h1, h2, h4, h3⟩ := hw
  have hp : port n = [] := by simp [port, splitHost, lastColon_none n h1]
  have hdb : '[' ∉ dflt ∧ ']' ∉ dflt := by
    constructor <;> (intro hm; have := List.all_eq_true.1 hd _ hm; revert this; decide)
  have e : withPort n dflt = n ++ ':' :: dflt := by
    simp only [withPort, hp, if_true, joinHostPort, contains_false h1, Bool.false_eq_true, if_false]
  rw [e]
  have hl := lastColon_at n dflt (digits_no_colon dflt hd)
  cases n with
  | nil => exact absurd rfl h3
  | cons c n =>
    have hc : c ≠ '[' := by intro hx; subst hx; simp at h2
    simp only [List.cons_append] at hl ⊢
    unfold splitHostPort
    split
    · rename_i r hx; simp only [List.cons.injEq] at hx; exact absurd hx.1 hc
    · rw [hl]
      simp only
      rw [if_neg]
      simp only [List.contains_eq_mem, decide_eq_true_eq]
      intro hx
      rcases hx with hx | hx | hx | hx | hx
      · exact h1 hx
      · exact h2 hx
      · exact h4 hx
      · exact hdb.1 hx
      · exact hdb.2 hx

/-- **A port that is given is kept.** -/
theorem given_port (n p dflt : Text) (h1 : ':' ∉ n) (hd : digits p = true) (hp : p ≠ []) :
    withPort (n ++ ':' :: p) dflt = n ++ ':' :: p := by
  have : port (n ++ ':' :: p) = p := by simp [port, splitHost, lastColon_at n p (digits_no_colon p hd), hd]
  simp [withPort, this, hp]

/-- An IPv6 address in brackets with a port is kept, too. -/
theorem given_port_v6 (a p dflt : Text) (hd : digits p = true) (hp : p ≠ []) :
    withPort (('[' :: a ++ [']']) ++ ':' :: p) dflt = ('[' :: a ++ [']']) ++ ':' :: p := by
  have : port (('[' :: a ++ [']']) ++ ':' :: p) = p := by
    simp only [port, splitHost]
    rw [lastColon_at _ p (digits_no_colon p hd)]
    simp [hd]
  unfold withPort
  rw [if_neg (by rw [this]; exact hp)]

theorem lastColon_snoc_bracket (t : Text) : ∀ h p, lastColon (t ++ [']']) = some (h, p) → ∃ q, p = q ++ [']'] := by
  induction t with
  | nil => intro h p hx; simp [lastColon] at hx
  | cons c t ih =>
    intro h p hx
    simp only [List.cons_append, lastColon] at hx
    split at hx
    · rename_i a b hab
      simp only [Option.some.injEq, Prod.mk.injEq] at hx
      rw [← hx.2]; exact ih a b hab
    · split at hx
      · simp only [Option.some.injEq, Prod.mk.injEq] at hx
        exact ⟨t, hx.2.symm⟩
      · simp at hx

theorem takeWhile_no_bracket (a rest : Text) (h : ']' ∉ a) : (a ++ ']' :: rest).takeWhile (· != ']') = a ∧
    (a ++ ']' :: rest).dropWhile (· != ']') = ']' :: rest := by
  induction a with
  | nil => simp
  | cons c a ih =>
    simp only [List.mem_cons, not_or] at h
    have hc : (c != ']') = true := by simpa using Ne.symm h.1
    obtain ⟨i1, i2⟩ := ih h.2
    constructor
    · rw [List.cons_append, List.takeWhile_cons, if_pos hc, i1]
    · rw [List.cons_append, List.dropWhile_cons, if_pos hc, i2]

/-- **Violated: an IPv6 address without a port is never reached.** The default port is added to the text with its brackets, which are
doubled; dialling refuses the result - for every address and every default port. -/
theorem ipv6_without_port (a dflt : Text) (hb : ']' ∉ a) (hc : ':' ∈ a) : splitHostPort (withPort ('[' :: a ++ [']']) dflt) = none := by
  have hp : port ('[' :: a ++ [']']) = [] := by
    simp only [port, splitHost]
    cases hl : lastColon ('[' :: a ++ [']']) with
    | none => rfl
    | some x =>
      obtain ⟨h, p⟩ := x
      obtain ⟨q, hq⟩ := lastColon_snoc_bracket ('[' :: a) h p hl
      have : digits p = false := by
        rw [hq]; simp only [digits, List.all_append, List.all_cons]
        have : (decide ('0' ≤ ']') && decide (']' ≤ '9')) = false := by decide
        rw [this]; simp
      simp only [this]; rfl
  have e : withPort ('[' :: a ++ [']']) dflt = '[' :: ('[' :: a ++ ']' :: ']' :: ':' :: dflt) := by
    have hcc : ('[' :: a ++ [']']).contains ':' = true := by simp [hc]
    unfold withPort
    rw [hp, if_pos rfl]
    unfold joinHostPort
    rw [if_pos hcc]
    simp
  rw [e]
  have hb' : ']' ∉ '[' :: a := by simp [hb]
  obtain ⟨_, t2⟩ := takeWhile_no_bracket ('[' :: a) (']' :: ':' :: dflt) hb'
  simp only [splitHostPort]
  rw [show ('[' :: a ++ ']' :: ']' :: ':' :: dflt) = (('[' :: a) ++ ']' :: (']' :: ':' :: dflt)) from by simp, t2]
  rfl

/-! ## Dialers -/

theorem withPort_ne (t d : Text) : withPort t d ≠ [] := by
  unfold withPort
  split
  · unfold joinHostPort; split <;> simp
  · rename_i h
    intro ht; subst ht; exact h rfl

/-- The certificate options matter. -/
def needsTls (r : Remote) : Bool := r.scheme == .tls || r.scheme == .quic

/-- The address for scheme `s`: that of the last remote with this scheme. -/
def addrOf (s : Scheme) (rs : List Remote) (dflt : Text) : Text :=
  match lastOf s rs with
  | some r => withPort r.host dflt
  | none => []

def lastOther (rs : List Remote) : Bool := match rs.getLast? with | some r => r.scheme == .other | none => false

theorem lastOf_cons (s : Scheme) (r : Remote) (rs : List Remote) :
    lastOf s (r :: rs) = match lastOf s rs with | some x => some x | none => if r.scheme = s then some r else none := by
  unfold lastOf
  rw [List.filter_cons]
  by_cases h : r.scheme = s
  · rw [if_pos (by simpa using h), List.getLast?_cons]
    cases (rs.filter (fun r => r.scheme == s)).getLast? <;> simp [h]
  · rw [if_neg (by simpa using h)]
    cases (rs.filter (fun r => r.scheme == s)).getLast? <;> simp [h]

theorem lastOther_cons (r : Remote) (rs : List Remote) : lastOther (r :: rs) = if rs = [] then r.scheme == .other else lastOther rs := by
  unfold lastOther
  rw [List.getLast?_cons]
  cases rs with
  | nil => simp
  | cons x xs =>
    rw [if_neg (by simp), List.getLast?_cons]
    simp

/-- `init` from any state, as one formula. -/
theorem initLoop_eq (cfg : Cfg) : ∀ (rs : List Remote) (d : D) (e : Bool), initLoop cfg d e rs =
    if (rs.any needsTls && (tlsOf cfg).isNone) || (if rs = [] then e else lastOther rs) then none
    else some { d with
      tcp := match lastOf .tcp rs with | some r => withPort r.host "80".toList | none => d.tcp
      tls := match lastOf .tls rs with | some r => withPort r.host "443".toList | none => d.tls
      quic := match lastOf .quic rs with | some r => withPort r.host "443".toList | none => d.quic
      conf := if rs.any needsTls then tlsOf cfg else d.conf } := by
  intro rs
  induction rs with
  | nil => intro d e; simp [initLoop, lastOf]
  | cons r rs ih =>
    intro d e
    obtain ⟨sch, host⟩ := r
    simp only [List.any_cons, lastOf_cons, lastOther_cons, if_neg (List.cons_ne_nil _ _)]
    cases sch with
    | tls =>
      simp only [initLoop]
      cases ht : tlsOf cfg with
      | none => simp [needsTls, ht]
      | some c =>
        simp only [ih, ht, needsTls]
        generalize lastOf .tcp rs = x1
        generalize lastOf .tls rs = x2
        generalize lastOf .quic rs = x3
        by_cases hrs : rs = []
        · subst hrs; cases x1 <;> cases x2 <;> cases x3 <;> simp
        · generalize rs.any needsTls = b
          generalize lastOther rs = l
          cases x1 <;> cases x2 <;> cases x3 <;> cases b <;> cases l <;> simp [hrs]
    | quic =>
      simp only [initLoop]
      cases ht : tlsOf cfg with
      | none => simp [needsTls, ht]
      | some c =>
        simp only [ih, ht, needsTls]
        generalize lastOf .tcp rs = x1
        generalize lastOf .tls rs = x2
        generalize lastOf .quic rs = x3
        by_cases hrs : rs = []
        · subst hrs; cases x1 <;> cases x2 <;> cases x3 <;> simp
        · generalize rs.any needsTls = b
          generalize lastOther rs = l
          cases x1 <;> cases x2 <;> cases x3 <;> cases b <;> cases l <;> simp [hrs]
    | tcp =>
      simp only [initLoop, ih, needsTls]
      generalize lastOf .tcp rs = x1
      generalize lastOf .tls rs = x2
      generalize lastOf .quic rs = x3
      by_cases hrs : rs = []
      · subst hrs; cases x1 <;> cases x2 <;> cases x3 <;> simp
      · cases x1 <;> cases x2 <;> cases x3 <;> simp [hrs]
    | other =>
      simp only [initLoop, ih, needsTls]
      generalize lastOf .tcp rs = x1
      generalize lastOf .tls rs = x2
      generalize lastOf .quic rs = x3
      by_cases hrs : rs = []
      · subst hrs; cases x1 <;> cases x2 <;> cases x3 <;> simp
      · cases x1 <;> cases x2 <;> cases x3 <;> simp [hrs]

/-- **What `init` makes of the remotes of one hostname**, exactly. -/
theorem init_exact (cfg : Cfg) (rs : List Remote) : initDialer cfg rs =
    if (rs.any needsTls && (tlsOf cfg).isNone) || lastOther rs then none
    else some ⟨addrOf .tcp rs "80".toList, addrOf .tls rs "443".toList, addrOf .quic rs "443".toList, false, false,
      if rs.any needsTls then tlsOf cfg else none⟩ := by
  unfold initDialer
  rw [initLoop_eq]
  have : (if rs = [] then false else lastOther rs) = lastOther rs := by
    split
    · rename_i h; subst h; rfl
    · rfl
  rw [this]
  rfl

theorem lastOf_some (s : Scheme) (rs : List Remote) (h : ∃ r ∈ rs, r.scheme = s) : ∃ r, lastOf s rs = some r ∧ r ∈ rs ∧ r.scheme = s := by
  obtain ⟨r, hr, hs⟩ := h
  unfold lastOf
  cases hl : (rs.filter (fun r => r.scheme == s)).getLast? with
  | none =>
    rw [List.getLast?_eq_none_iff] at hl
    have : r ∈ rs.filter (fun r => r.scheme == s) := by simp [hr, hs]
    rw [hl] at this; simp at this
  | some x =>
    have := List.mem_of_getLast? hl
    simp only [List.mem_filter, beq_iff_eq] at this
    exact ⟨x, rfl, this.1, this.2⟩

theorem lastOf_none (s : Scheme) (rs : List Remote) (h : ∀ r ∈ rs, r.scheme ≠ s) : lastOf s rs = none := by
  unfold lastOf
  have : rs.filter (fun r => r.scheme == s) = [] := by
    rw [List.filter_eq_nil_iff]; intro r hr; simpa using h r hr
  rw [this]; rfl

/-! ## C105: encryption that is configured is used -/

/-- **No downgrade**: if a `tls://` remote is configured for a host, every connection to that host is made by TLS, to the address of
such a remote, with exactly the configured way to check the certificate - whatever else is configured and whatever fails. -/
theorem tls_configured_tls_used (cfg : Cfg) (rs : List Remote) (d : D) (h : initDialer cfg rs = some d) (ht : ∃ r ∈ rs, r.scheme = .tls) :
    ∃ r c, r ∈ rs ∧ r.scheme = .tls ∧ tlsOf cfg = some c ∧ dial d = .tls (withPort r.host "443".toList) (some c) := by
  obtain ⟨r, hr, hm, hs⟩ := lastOf_some .tls rs ht
  have hn : rs.any needsTls = true := by
    rw [List.any_eq_true]; exact ⟨r, hm, by simp [needsTls, hs]⟩
  rw [init_exact] at h
  split at h
  · cases h
  · rename_i hc
    simp only [Option.some.injEq] at h
    cases htl : tlsOf cfg with
    | none => rw [hn, htl] at hc; simp at hc
    | some c =>
      refine ⟨r, c, hm, hs, rfl, ?_⟩
      subst h
      have ha : addrOf .tls rs "443".toList = withPort r.host "443".toList := by simp only [addrOf, hr]
      simp only [dial, ha, hn, if_true, htl]
      rw [if_pos ⟨trivial, withPort_ne _ _⟩]

/-- **A host with a `tls://` or `quic://` remote is never contacted without encryption.** -/
theorem never_plaintext (cfg : Cfg) (rs : List Remote) (d : D) (h : initDialer cfg rs = some d)
    (ht : ∃ r ∈ rs, r.scheme = .tls ∨ r.scheme = .quic) (a : Text) : dial d ≠ .tcp a := by
  by_cases h1 : ∃ r ∈ rs, r.scheme = .tls
  · obtain ⟨r, c, _, _, _, e⟩ := tls_configured_tls_used cfg rs d h h1
    rw [e]; simp
  · have hq : ∃ r ∈ rs, r.scheme = .quic := by
      obtain ⟨r, hr, hs⟩ := ht
      rcases hs with hs | hs
      · exact absurd ⟨r, hr, hs⟩ h1
      · exact ⟨r, hr, hs⟩
    obtain ⟨r, hr, hm, hs⟩ := lastOf_some .quic rs hq
    rw [init_exact] at h
    split at h
    · cases h
    · simp only [Option.some.injEq] at h
      subst h
      have ha : addrOf .quic rs "443".toList = withPort r.host "443".toList := by simp only [addrOf, hr]
      simp only [dial, ha]
      split
      · simp
      · rw [if_pos (withPort_ne _ _)]; simp

/-- The certificate is left unchecked only if the user asked for it, and checked against the user's file if there is one. -/
theorem check_as_configured (cfg : Cfg) (c : Tls) (h : tlsOf cfg = some c) : c.insecure = cfg.insecure ∧
    (cfg.certFile = none ∧ c.roots = none ∨ ∃ r, cfg.certFile = some (some r) ∧ c.roots = some r) := by
  unfold tlsOf at h
  split at h
  · rename_i hc; simp only [Option.some.injEq] at h; subst h; exact ⟨rfl, Or.inl ⟨hc, rfl⟩⟩
  · cases h
  · rename_i r hc; simp only [Option.some.injEq] at h; subst h; exact ⟨rfl, Or.inr ⟨r, hc, rfl⟩⟩

/-- **A certificate file that cannot be used keeps the client from starting** when there is an encrypted remote. -/
theorem bad_certificate_refused (cfg : Cfg) (rs : List Remote) (hc : cfg.certFile = some none)
    (ht : ∃ r ∈ rs, r.scheme = .tls ∨ r.scheme = .quic) : initDialer cfg rs = none := by
  obtain ⟨r, hr, hs⟩ := ht
  have hn : rs.any needsTls = true := by
    rw [List.any_eq_true]; exact ⟨r, hr, by rcases hs with hs | hs <;> simp [needsTls, hs]⟩
  rw [init_exact, if_pos]
  simp [hn, tlsOf, hc]

/-! ## C106: every configured server is contacted as configured -/

/-- **Without `tls://`, QUIC is used if configured; otherwise TCP**, each to the address of the last such remote. -/
theorem quic_then_tcp (cfg : Cfg) (rs : List Remote) (d : D) (h : initDialer cfg rs = some d) (ht : ∀ r ∈ rs, r.scheme ≠ .tls) :
    (∀ r, lastOf .quic rs = some r → dial d = .quic (withPort r.host "443".toList) (tlsOf cfg)) ∧
    (lastOf .quic rs = none → ∀ r, lastOf .tcp rs = some r → dial d = .tcp (withPort r.host "80".toList)) := by
  rw [init_exact] at h
  split at h
  · cases h
  · simp only [Option.some.injEq] at h
    subst h
    have h0 : addrOf .tls rs "443".toList = [] := by simp only [addrOf, lastOf_none .tls rs ht]
    constructor
    · intro r hr
      have ha : addrOf .quic rs "443".toList = withPort r.host "443".toList := by simp only [addrOf, hr]
      have hn : rs.any needsTls = true := by
        have := List.mem_of_getLast? hr
        simp only [List.mem_filter, beq_iff_eq] at this
        rw [List.any_eq_true]; exact ⟨r, this.1, by simp [needsTls, this.2]⟩
      simp only [dial, h0, ha, hn]
      rw [if_neg (by simp), if_pos (withPort_ne _ _)]
      simp
    · intro hq r hr
      have hq' : addrOf .quic rs "443".toList = [] := by simp only [addrOf, hq]
      have ha : addrOf .tcp rs "80".toList = withPort r.host "80".toList := by simp only [addrOf, hr]
      simp only [dial, h0, hq', ha]
      rw [if_neg (by simp), if_neg (by simp), if_pos (withPort_ne _ _)]

theorem mem_hostnames (rs : List Remote) (h : Text) : h ∈ hostnames rs ↔ ∃ r ∈ rs, hostname r.host = h := by
  induction rs with
  | nil => simp [hostnames]
  | cons r rs ih =>
    simp only [hostnames, List.mem_cons, List.mem_filter, bne_iff_ne, ne_eq, ih]
    constructor
    · rintro (h1 | ⟨⟨x, hx, he⟩, _⟩)
      · exact ⟨r, Or.inl rfl, h1.symm⟩
      · exact ⟨x, Or.inr hx, he⟩
    · rintro ⟨x, hx | hx, he⟩
      · subst hx; exact Or.inl he.symm
      · by_cases hh : h = hostname r.host
        · exact Or.inl hh
        · exact Or.inr ⟨⟨x, hx, he⟩, hh⟩

theorem nodup_hostnames (rs : List Remote) : (hostnames rs).Nodup := by
  induction rs with
  | nil => simp [hostnames]
  | cons r rs ih =>
    simp only [hostnames, List.nodup_cons]
    exact ⟨by simp, ih.filter _⟩

theorem processAll_spec (cfg : Cfg) (rs : List Remote) : ∀ hs ds, processAll cfg rs hs = some ds →
    ds.map Prod.fst = hs ∧ ∀ x ∈ ds, initDialer cfg (group rs x.1) = some x.2 := by
  intro hs
  induction hs with
  | nil => intro ds h; simp only [processAll, Option.some.injEq] at h; subst h; simp
  | cons h hs ih =>
    intro ds hp
    simp only [processAll] at hp
    split at hp
    · rename_i d ds' h1 h2
      simp only [Option.some.injEq] at hp
      subst hp
      obtain ⟨i1, i2⟩ := ih ds' h2
      refine ⟨by simp [i1], fun x hx => ?_⟩
      simp only [List.mem_cons] at hx
      rcases hx with hx | hx
      · subst hx; exact h1
      · exact i2 x hx
    · cases hp

/-- **Every configured host is contacted, each by exactly one set of connections**, made from the remotes given for that host.
C106. Missing from the claim: that every remote counts, which is false (`earlier_remote_ignored`, `unknown_scheme_refused_iff`, `ipv6_without_port`). -/
theorem every_host_contacted_partial (cfg : Cfg) (rs : List Remote) (ds : List (Text × D)) (h : processRemotes cfg rs = some ds) :
    (ds.map Prod.fst).Nodup ∧ ∀ r ∈ rs, ∃ d, (hostname r.host, d) ∈ ds ∧
      initDialer cfg (rs.filter (fun x => hostname x.host == hostname r.host)) = some d := by
  obtain ⟨h1, h2⟩ := processAll_spec cfg rs _ _ h
  rw [h1]
  refine ⟨nodup_hostnames rs, fun r hr => ?_⟩
  have : hostname r.host ∈ ds.map Prod.fst := by rw [h1, mem_hostnames]; exact ⟨r, hr, rfl⟩
  obtain ⟨x, hx, he⟩ := List.mem_map.1 this
  refine ⟨x.2, ?_, ?_⟩
  · rw [← he]; exact hx
  · rw [← he]; exact h2 x hx

/-- **The whole client never contacts a host without encryption** for which a `tls://` or `quic://` remote is configured, and uses TLS if
there is a `tls://` remote. -/
theorem client_never_plaintext (cfg : Cfg) (rs : List Remote) (ds : List (Text × D)) (h : processRemotes cfg rs = some ds)
    (name : Text) (d : D) (hd : (name, d) ∈ ds) :
    ((∃ r ∈ rs, hostname r.host = name ∧ (r.scheme = .tls ∨ r.scheme = .quic)) → ∀ a, dial d ≠ .tcp a) ∧
    ((∃ r ∈ rs, hostname r.host = name ∧ r.scheme = .tls) → ∃ a c, dial d = .tls a (some c) ∧ tlsOf cfg = some c) := by
  obtain ⟨_, h2⟩ := processAll_spec cfg rs _ _ h
  have hi := h2 _ hd
  simp only at hi
  constructor
  · rintro ⟨r, hr, hn, hs⟩ a
    exact never_plaintext cfg _ d hi ⟨r, by simp [group, hr, hn], hs⟩ a
  · rintro ⟨r, hr, hn, hs⟩
    obtain ⟨x, c, _, _, hc, e⟩ := tls_configured_tls_used cfg _ d hi ⟨r, by simp [group, hr, hn], hs⟩
    exact ⟨_, c, e, hc⟩

/-- **Violated: of several remotes with the same host and scheme only the last counts.** An earlier one - another port, say - is silently
ignored: the result is what it would be without it. -/
theorem earlier_remote_ignored (cfg : Cfg) (a b c : List Remote) (r1 r2 : Remote) (h : r1.scheme = r2.scheme) (ho : r2.scheme ≠ .other) :
    initDialer cfg (a ++ r1 :: (b ++ r2 :: c)) = initDialer cfg (a ++ (b ++ r2 :: c)) := by
  have hl : ∀ s, lastOf s (a ++ r1 :: (b ++ r2 :: c)) = lastOf s (a ++ (b ++ r2 :: c)) := by
    intro s
    unfold lastOf
    by_cases hs : r2.scheme = s
    · simp only [List.filter_append, List.filter_cons, h, hs, beq_self_eq_true, if_true, List.getLast?_append, List.getLast?_cons]
      simp
    · have e1 : (r1.scheme == s) = false := by rw [h]; simpa using hs
      have e2 : (r2.scheme == s) = false := by simpa using hs
      simp only [List.filter_append, List.filter_cons, e1, e2, if_neg, Bool.false_eq_true, if_false]
  have hn : (a ++ r1 :: (b ++ r2 :: c)).any needsTls = (a ++ (b ++ r2 :: c)).any needsTls := by
    have : needsTls r1 = needsTls r2 := by simp [needsTls, h]
    simp only [List.any_append, List.any_cons, this]
    cases a.any needsTls <;> cases needsTls r2 <;> cases b.any needsTls <;> simp
  have ho' : lastOther (a ++ r1 :: (b ++ r2 :: c)) = lastOther (a ++ (b ++ r2 :: c)) := by
    unfold lastOther
    simp only [List.getLast?_append, List.getLast?_cons]
    cases c.getLast? <;> simp
  rw [init_exact, init_exact]
  simp only [addrOf, hl, hn, ho']

/-- **Violated: an unknown scheme is refused only if it stands last** among the remotes of its host; otherwise that remote is silently
ignored. -/
theorem unknown_scheme_refused_iff (cfg : Cfg) (a b : List Remote) (o : Remote) (ho : o.scheme = .other) :
    (b = [] → initDialer cfg (a ++ o :: b) = none) ∧ (b ≠ [] → initDialer cfg (a ++ o :: b) = initDialer cfg (a ++ b)) := by
  constructor
  · intro hb
    subst hb
    rw [init_exact, if_pos]
    simp [lastOther, ho]
  · intro hb
    have hl : ∀ s, s ≠ .other → lastOf s (a ++ o :: b) = lastOf s (a ++ b) := by
      intro s hs
      unfold lastOf
      have : (o.scheme == s) = false := by rw [ho]; simpa using Ne.symm hs
      simp only [List.filter_append, List.filter_cons, this, Bool.false_eq_true, if_false]
    have hn : (a ++ o :: b).any needsTls = (a ++ b).any needsTls := by
      have : needsTls o = false := by simp only [needsTls, ho]; rfl
      simp [this]
    have hlo : lastOther (a ++ o :: b) = lastOther (a ++ b) := by
      unfold lastOther
      simp only [List.getLast?_append, List.getLast?_cons]
      cases hx : b.getLast? with
      | none => rw [List.getLast?_eq_none_iff] at hx; exact absurd hx hb
      | some x => simp
    rw [init_exact, init_exact]
    simp only [addrOf, hl _ (show Scheme.tcp ≠ .other by simp), hl _ (show Scheme.tls ≠ .other by simp), hl _ (show Scheme.quic ≠ .other by simp), hn, hlo]

/-- **Violated: the option `bbr` has no effect in the client**: with it everything is as without it, and the transport it should select is
never used. -/
theorem bbr_ignored (cfg : Cfg) (rs : List Remote) : processRemotes { cfg with bbr := true } rs = processRemotes { cfg with bbr := false } rs := by
  have ht : tlsOf { cfg with bbr := true } = tlsOf { cfg with bbr := false } := by simp [tlsOf]
  have hi : ∀ rs, initDialer { cfg with bbr := true } rs = initDialer { cfg with bbr := false } rs := by
    intro rs; rw [init_exact, init_exact, ht]
  have : ∀ hs, processAll { cfg with bbr := true } rs hs = processAll { cfg with bbr := false } rs hs := by
    intro hs
    induction hs with
    | nil => rfl
    | cons h hs ih => simp only [processAll, hi, ih]
  exact this _

theorem bbr_never_used (cfg : Cfg) (rs : List Remote) (d : D) (h : initDialer cfg rs = some d) (a : Text) (c : Option Tls) :
    dial d ≠ .msquic a c := by
  rw [init_exact] at h
  split at h
  · cases h
  · simp only [Option.some.injEq] at h
    subst h
    simp only [dial]
    repeat' split
    all_goals simp_all

/-! ## The remote API -/

/-- What an inquiry at the remote API yields: nothing usable, an address without a scheme, or one with a scheme. -/
inductive Resp where
  | failed
  | plain (host : Text)
  | url (r : Remote)
deriving DecidableEq, Repr

/-- libcs/client/client.go:309-348 `initWithRemoteAPI`: an address without `://` is not a URL with a known scheme (`example.com:80` has the scheme
`example.com`, `1.2.3.4:80` and `example.com` have none). -/
def apiTry (cfg : Cfg) : Resp → Option D
  | .failed => none
  | .plain _ => none
  | .url r => initDialer cfg [r]

/-- libcs/client/client.go:476-490: inquiries until one is usable. -/
def apiStart (cfg : Cfg) (answers : List Resp) : Option D := answers.findSome? (apiTry cfg)

/-- libcs/client/client.go:387-391: what the option `-remote` makes of the same texts. -/
def optionOf : Resp → Option Remote
  | .failed => none
  | .plain h => some ⟨.tcp, h⟩
  | .url r => some r

/-- **The client starts with the first usable answer.** -/
theorem api_first_usable (cfg : Cfg) (bad : List Resp) (x : Resp) (d : D) (rest : List Resp) (hb : ∀ y ∈ bad, apiTry cfg y = none)
    (hx : apiTry cfg x = some d) : apiStart cfg (bad ++ x :: rest) = some d := by
  unfold apiStart
  induction bad with
  | nil => simp [List.findSome?_cons, hx]
  | cons y bad ih =>
    rw [List.cons_append, List.findSome?_cons, hb y (by simp)]
    exact ih (fun y hy => hb y (by simp [hy]))

/-- **Violated: an address without a scheme, which the option `-remote` takes, is never usable from the remote API**: the client asks for
ever. -/
theorem api_plain_never (cfg : Cfg) (answers : List Resp) (h : ∀ x ∈ answers, ∃ a, x = .plain a) : apiStart cfg answers = none ∧
    ∀ a, ∃ d, initDialer cfg [⟨.tcp, a⟩] = some d ∧ dial d = .tcp (withPort a "80".toList) := by
  constructor
  · unfold apiStart
    induction answers with
    | nil => rfl
    | cons x xs ih =>
      obtain ⟨a, ha⟩ := h x (by simp)
      subst ha
      rw [List.findSome?_cons]
      exact ih (fun y hy => h y (by simp [hy]))
  · intro a
    have : initDialer cfg [⟨.tcp, a⟩] = some { tcp := withPort a "80".toList } := rfl
    refine ⟨_, this, ?_⟩
    simp only [dial]
    rw [if_neg (by simp), if_neg (by simp), if_pos (withPort_ne _ _)]

/-! ## A server that cannot be reached -/

inductive Res where
  | ok | err | panic
deriving DecidableEq, Repr

/-- The attempt itself: `net.Dial` and `tls.Dial` report an error; `QuicDial` panics (libcs/conn/quicConn.go:32-44). -/
def attempt (v : Via) (reachable : Bool) : Res :=
  match v with
  | .quic _ _ => if reachable then .ok else .panic
  | .nothing => .err
  | _ => if reachable then .ok else .err

inductive Effect where
  | goesOn
  /-- the goroutine ends or tries again; the client stays -/
  | contained
  /-- a panic that nothing recovers ends the process -/
  | processEnds
deriving DecidableEq, Repr

/-- libcs/client/client.go:649-657: connecting a tunnel recovers a panic. -/
def tunnelEffect : Res → Effect
  | .ok => .goesOn
  | _ => .contained

/-- libcs/client/tcpforward.go:34-41, 219: setting up P2P forwarding does not. -/
def forwardEffect : Res → Effect
  | .ok => .goesOn
  | .err => .contained
  | .panic => .processEnds

/-- **A tunnel survives every unreachable server.** -/
theorem tunnel_survives (v : Via) (r : Bool) : tunnelEffect (attempt v r) ≠ .processEnds := by
  cases attempt v r <;> simp [tunnelEffect]

/-- A server that is there is reached, by every transport; one that is not, by none. -/
theorem attempt_ok_iff (v : Via) (r : Bool) : attempt v r = .ok ↔ r = true ∧ v ≠ .nothing := by
  cases v <;> cases r <;> simp [attempt]

/-- **P2P forwarding ends the client exactly if the server is reached by QUIC and cannot be reached.** -/
theorem forward_ends_client_iff (v : Via) (r : Bool) : forwardEffect (attempt v r) = .processEnds ↔ r = false ∧ ∃ a c, v = .quic a c := by
  cases v <;> cases r <;> simp [attempt, forwardEffect]

/-! ### Witnesses -/

example : withPort "example.com".toList "443".toList = "example.com:443".toList := by decide
example : Plain "example.com".toList := ⟨by decide, by decide, by decide, by decide⟩
example : withPort "[::1]".toList "443".toList = "[[::1]]:443".toList := by decide
example : splitHostPort "[::1]:443".toList = some ("::1".toList, "443".toList) := by decide
example : hostname "[::1]:443".toList = "::1".toList := by decide
example : (initDialer {} [⟨.tls, "h".toList⟩, ⟨.tcp, "h".toList⟩]).map dial = some (.tls "h:443".toList (some ⟨none, false⟩)) := by decide
example : (initDialer {} [⟨.tcp, "h:81".toList⟩, ⟨.tcp, "h:82".toList⟩]).map dial = some (.tcp "h:82".toList) := by decide
example : (initDialer {} [⟨.other, "h".toList⟩, ⟨.tcp, "h".toList⟩]).map dial = some (.tcp "h:80".toList) := by decide
example : initDialer {} [⟨.tcp, "h".toList⟩, ⟨.other, "h".toList⟩] = none := by decide
example : (initDialer { bbr := true } [⟨.quic, "h".toList⟩]).map dial = some (.quic "h:443".toList (some ⟨none, false⟩)) := by decide
example : (processRemotes {} [⟨.tcp, "a".toList⟩, ⟨.tls, "b".toList⟩, ⟨.quic, "a:1".toList⟩]).map (·.map (dial ·.2)) =
    some [.quic "a:1".toList (some ⟨none, false⟩), .tls "b:443".toList (some ⟨none, false⟩)] := by decide

end Verif.Client.Dialer
