import Verif.Util.RotateLogs
set_option linter.unusedSimpArgs false
set_option linter.unusedVariables false
set_option linter.unusedSectionVars false
/-!
# C141: when a reload of the services is carried out
(libcs/client/client.go:56-135, 445-540, 748-768, 899-973; libcs/client/config.go:41-98, 102-127, 168-210; libcs/client/web/web.go:84-109;
libcs/lib/export/lib.go:137-196)

`ReloadServices` reads the configuration again, refuses if an option other than the services has changed, refuses if the services have not
changed, and otherwise stores the new services and tells the server (C63, C64). The decision depends on what `New`, `checkConfig` and `Start`
have made of the options in between, which are kept in the same place.

The value of an option that is given is the one on the command line or else the one in the file (C49); what `parseServices` makes of the
services is C34. The options with a JSON name are compared through their JSON text; different values are trusted to have different texts.
-/
namespace Verif.Reload.Decide
open Verif
open Verif.Util.RotateLogs (dec)

/-- A service as `parseServices` returns it (libcs/client/config.go:168-177); `url` is `LocalURL.String()`. `RemoteTCPRandom` is never nil there
(libcs/client/client.go:830-833). -/
structure Svc where
  pre : Bytes
  url : Bytes
  port : Nat
  rand : Bool
  timeout : Nat
  useLocal : Bool
deriving DecidableEq, Repr

/-- libcs/client/config.go:179-196 `service.String`. -/
def svcText (s : Svc) : Bytes :=
  ascii "service {" ++ (ascii "hostPrefix: " ++ (s.pre ++ (ascii ", local: " ++ (s.url ++ (ascii ", remoteTCPPort: " ++ (dec s.port ++
    (ascii ", remoteTCPRandom: " ++ ((if s.rand then ascii "true" else ascii "false") ++ ascii "}"))))))))

/-- libcs/client/config.go:200-209: the services, separated by commas. -/
def svcsText : List Svc → Bytes
  | [] => []
  | [s] => svcText s
  | s :: r => svcText s ++ (ascii "," ++ svcsText r)

/-- libcs/client/config.go:198-210 `services.String`, which `fmt.Sprintf("%v", services)` calls. -/
def text (ss : List Svc) : Bytes := ascii "[" ++ (svcsText ss ++ ascii "]")

variable {V : Type} [DecidableEq V]

/-- An option with a JSON name that nothing but `MergeConfig` touches: its zero and default values, and whether it is a slice. -/
structure Field (V : Type) where
  zero : V
  dflt : V
  slice : Bool

/-- The options with a JSON name (libcs/client/config.go:41-98). -/
structure Opts (V : Type) where
  secret : Bytes
  conns : Nat
  idle : Nat
  webrtc : Nat
  fwd : Nat
  webAddr : Bytes
  rest : List V
deriving DecidableEq

/-- What the command line and the file give, and what `parseServices` makes of the services (`none`: an error). -/
structure Given (V : Type) where
  secret : Option Bytes := none
  conns : Option Nat := none
  idle : Option Nat := none
  webrtc : Option Nat := none
  fwd : Option Nat := none
  webAddr : Option Bytes := none
  rest : Nat → Option V := fun _ => none
  svcs : Option (List Svc) := none

/-- `ParseFlags` over `getDefaultConfig` (libcs/client/client.go:122-132, libcs/client/config.go:102-127); `web` is the `WebAddr` it starts with. -/
def readOpts (sch : List (Field V)) (web : Bytes) (g : Given V) : Opts V where
  secret := g.secret.getD []
  conns := g.conns.getD 3
  idle := g.idle.getD 1
  webrtc := g.webrtc.getD 30
  fwd := g.fwd.getD 3
  webAddr := g.webAddr.getD web
  rest := sch.mapIdx (fun i f => (g.rest i).getD f.dflt)

/-- libcs/client/client.go:114-118, one number with a default. -/
def mergeN (dflt n : Nat) : Nat := if n = 0 then dflt else n

/-- libcs/client/client.go:108-121 `MergeConfig`. -/
def merge (sch : List (Field V)) (o : Opts V) : Opts V :=
  { o with
    conns := mergeN 3 o.conns, idle := mergeN 1 o.idle, webrtc := mergeN 30 o.webrtc, fwd := mergeN 3 o.fwd
    rest := o.rest.mapIdx (fun i v => match sch[i]? with
      | some f => if v = f.zero ∧ f.slice = false ∧ f.dflt ≠ f.zero then f.dflt else v
      | none => v) }

/-- libcs/client/web/web.go:88-90 `checkConfig`, called if there is a web address (libcs/lib/client/client.go:24-29). -/
def webCheck (o : Opts V) : Opts V :=
  { o with webAddr := if o.webAddr ≠ [] ∧ (58 : UInt8) ∉ o.webAddr then 58 :: o.webAddr else o.webAddr }

/-- libcs/client/client.go:451-456: a secret is made up. -/
def withSecret (rnd : Bytes) (o : Opts V) : Opts V := { o with secret := if o.secret = [] then rnd else o.secret }

/-- `x` between `lo` and `hi`. -/
def clamp (lo hi x : Nat) : Nat := if x < lo then lo else if x > hi then hi else x

/-- libcs/client/client.go:529-531. -/
def atLeast1 (x : Nat) : Nat := if x < 1 then 1 else x

/-- libcs/client/client.go:496-510, 529-531. -/
def limits (o : Opts V) : Opts V :=
  let conns := clamp 1 10 o.conns
  { o with
    conns := conns
    idle := clamp 1 conns o.idle
    webrtc := clamp 1 50 o.webrtc
    fwd := atLeast1 o.fwd }

/-- How far the start came (libcs/lib/export/lib.go:154-165). With a web address the process goes on in any case. -/
inductive Stage where
  /-- there is no configuration file: `Start` is not called -/
  | noFile
  /-- the id or the secret was refused, or the services were -/
  | noServices
  /-- no remote could be made out -/
  | noRemote
  | started
deriving DecidableEq, Repr

/-- The client as far as the decision goes; `sum`: the checksum of its services, nil before `parseServices` has succeeded. -/
structure Run (V H : Type) where
  opts : Opts V
  sum : Option H

variable {H : Type} [DecidableEq H]

/-- `New`, `StartWebServer` and `Start` (libcs/client/client.go:56-66, 445-540, 748-768). `rnd`: the secret `Start` makes up; `noArgs`: the
program was called without arguments (libcs/client/config.go:129-134). `hash`: SHA-256. -/
def start (hash : Bytes → H) (sch : List (Field V)) (noArgs : Bool) (rnd : Bytes) (g : Given V) (st : Stage) : Run V H :=
  let o := webCheck (merge sch (readOpts sch (if noArgs then ascii "127.0.0.1:7000" else []) g))
  match st with
  | .noFile => ⟨o, none⟩
  | .noServices => ⟨withSecret rnd o, none⟩
  | .noRemote => ⟨withSecret rnd o, g.svcs.map (fun ss => hash (text ss))⟩
  | .started => ⟨limits (withSecret rnd o), g.svcs.map (fun ss => hash (text ss))⟩

inductive Res where
  /-- "the options section of config file changed" -/
  | optionsChanged
  /-- an error of `parseServices` -/
  | badServices
  /-- "no service is configured" -/
  | noService
  /-- "config did not change" -/
  | notChanged
  /-- the nil checksum is dereferenced: the process ends -/
  | panic
  /-- the new services are stored and sent -/
  | applied (ss : List Svc)
deriving DecidableEq, Repr

/-- `ReloadServices` up to the point where the new configuration is stored (libcs/client/client.go:900-972). -/
def reload (hash : Bytes → H) (sch : List (Field V)) (run : Run V H) (g : Given V) : Res × Run V H :=
  let o := readOpts sch run.opts.webAddr g
  if o ≠ run.opts then (.optionsChanged, run)
  else
    match g.svcs with
    | none => (.badServices, run)
    | some [] => (.noService, run)
    | some ss =>
      match run.sum with
      | none => (.panic, run)
      | some h => if hash (text ss) = h then (.notChanged, run) else (.applied ss, ⟨o, some (hash (text ss))⟩)

/-! ## Specification -/

/-- What a visitor of the service, and the server, can see of it at once. -/
structure Core where
  pre : Bytes
  url : Bytes
  port : Nat
  rand : Bool
deriving DecidableEq, Repr

def Svc.core (s : Svc) : Core := ⟨s.pre, s.url, s.port, s.rand⟩

/-- The prefix has no comma and the URL no space, as usual. -/
def Svc.Usual (s : Svc) : Prop := (44 : UInt8) ∉ s.pre ∧ (32 : UInt8) ∉ s.url

/-- The two say the same about every option other than the services. -/
structure SameOptions (sch : List (Field V)) (a b : Given V) : Prop where
  secret : a.secret.getD [] = b.secret.getD []
  conns : a.conns.getD 3 = b.conns.getD 3
  idle : a.idle.getD 1 = b.idle.getD 1
  webrtc : a.webrtc.getD 30 = b.webrtc.getD 30
  fwd : a.fwd.getD 3 = b.fwd.getD 3
  webAddr : a.webAddr = b.webAddr
  rest : ∀ (i : Nat) (f : Field V), sch[i]? = some f → (a.rest i).getD f.dflt = (b.rest i).getD f.dflt

/-- Nothing that `New`, `checkConfig` or `Start` would change. -/
structure Plain (sch : List (Field V)) (g : Given V) : Prop where
  secret : g.secret.getD [] ≠ []
  conns : 1 ≤ g.conns.getD 3 ∧ g.conns.getD 3 ≤ 10
  idle : 1 ≤ g.idle.getD 1 ∧ g.idle.getD 1 ≤ g.conns.getD 3
  webrtc : 1 ≤ g.webrtc.getD 30 ∧ g.webrtc.getD 30 ≤ 50
  fwd : 1 ≤ g.fwd.getD 3
  webAddr : g.webAddr.getD [] = [] ∨ (58 : UInt8) ∈ g.webAddr.getD []
  rest : ∀ (i : Nat) (f : Field V), sch[i]? = some f → (g.rest i).getD f.dflt = f.zero → f.slice = false → f.dflt = f.zero

/-! ## The text of the services -/

theorem cut_at {a a' x x' : Bytes} {c : UInt8} (h : a ++ c :: x = a' ++ c :: x') (ha : c ∉ a) (ha' : c ∉ a') : a = a' ∧ x = x' := by
  induction a generalizing a' with
  | nil =>
    cases a' with
    | nil => simp at h; exact ⟨rfl, h⟩
    | cons b r => simp at h; exact absurd (by simp [h.1]) ha'
  | cons b r ih =>
    cases a' with
    | nil => simp at h; exact absurd (by simp [h.1]) ha
    | cons b' r' =>
      simp only [List.cons_append, List.cons.injEq] at h
      obtain ⟨h1, h2⟩ := ih h.2 (fun m => ha (List.mem_cons_of_mem _ m)) (fun m => ha' (List.mem_cons_of_mem _ m))
      exact ⟨by rw [h.1, h1], h2⟩

theorem dec_digits (n : Nat) : ∀ b ∈ dec n, 48 ≤ b.toNat ∧ b.toNat ≤ 57 := by
  have hd : ∀ n, 48 ≤ (Verif.Util.RotateLogs.digit n).toNat ∧ (Verif.Util.RotateLogs.digit n).toNat ≤ 57 := by
    intro n
    have : n % 10 < 10 := Nat.mod_lt _ (by decide)
    unfold Verif.Util.RotateLogs.digit
    rw [u8_ofNat_toNat (by omega)]
    omega
  have key : ∀ f n, ∀ b ∈ Verif.Util.RotateLogs.decF f n, 48 ≤ b.toNat ∧ b.toNat ≤ 57 := by
    intro f
    induction f with
    | zero => intro n b hb; simp [Verif.Util.RotateLogs.decF] at hb
    | succ f ih =>
      intro n b hb
      simp only [Verif.Util.RotateLogs.decF] at hb
      split at hb
      · simp at hb; subst hb; exact hd n
      · rcases List.mem_append.mp hb with h | h
        · exact ih _ b h
        · simp at h; subst h; exact hd n
  exact key _ n

theorem dec_inj {a b : Nat} (h : dec a = dec b) : a = b := by
  rw [← Verif.Util.RotateLogs.valOf_dec a, h, Verif.Util.RotateLogs.valOf_dec]

/-- The text of a service is never the beginning of another's. -/
theorem svcText_cut {s s' : Svc} {x x' : Bytes} (hs : s.Usual) (hs' : s'.Usual) (h : svcText s ++ x = svcText s' ++ x') :
    s.core = s'.core ∧ x = x' := by
  unfold svcText at h
  simp only [List.append_assoc] at h
  have h1 := List.append_cancel_left (List.append_cancel_left h)
  have e1 : ascii ", local: " = 44 :: ascii " local: " := by decide +kernel
  rw [e1] at h1
  simp only [List.cons_append] at h1
  obtain ⟨p, h2⟩ := cut_at h1 hs.1 hs'.1
  have h3 := List.append_cancel_left h2
  have e2 : ascii ", remoteTCPPort: " = [44] ++ 32 :: ascii "remoteTCPPort: " := by decide +kernel
  rw [e2] at h3
  have h4 : (s.url ++ [44]) ++ 32 :: (ascii "remoteTCPPort: " ++ (dec s.port ++ (ascii ", remoteTCPRandom: " ++
      ((if s.rand then ascii "true" else ascii "false") ++ (ascii "}" ++ x))))) =
      (s'.url ++ [44]) ++ 32 :: (ascii "remoteTCPPort: " ++ (dec s'.port ++ (ascii ", remoteTCPRandom: " ++
      ((if s'.rand then ascii "true" else ascii "false") ++ (ascii "}" ++ x'))))) := by
    simpa [List.append_assoc] using h3
  obtain ⟨u, h5⟩ := cut_at h4 (by simp [hs.2]) (by simp [hs'.2])
  have hu := List.append_cancel_right u
  have h6 := List.append_cancel_left h5
  have e3 : ascii ", remoteTCPRandom: " = 44 :: ascii " remoteTCPRandom: " := by decide +kernel
  rw [e3] at h6
  simp only [List.cons_append] at h6
  have nd : ∀ n, (44 : UInt8) ∉ dec n := by
    intro n hm
    have := dec_digits n 44 hm
    simp at this
  obtain ⟨q, h7⟩ := cut_at h6 (nd _) (nd _)
  have h8 := List.append_cancel_left h7
  have e4 : ascii "true" = 116 :: ascii "rue" := by decide +kernel
  have e5 : ascii "false" = 102 :: ascii "alse" := by decide +kernel
  have key : s.rand = s'.rand := by
    cases h9 : s.rand <;> cases h10 : s'.rand
    · rfl
    · simp only [h9, h10, e4, e5, if_true, Bool.false_eq_true, if_false, List.cons_append, List.cons.injEq] at h8
      exact absurd h8.1 (by decide)
    · simp only [h9, h10, e4, e5, if_true, Bool.false_eq_true, if_false, List.cons_append, List.cons.injEq] at h8
      exact absurd h8.1 (by decide)
    · rfl
  rw [key] at h8
  have h11 := List.append_cancel_left (List.append_cancel_left h8)
  refine ⟨?_, h11⟩
  unfold Svc.core
  rw [p, hu, dec_inj q, key]

theorem svcsText_cut : ∀ (a b : List Svc), (∀ s ∈ a, s.Usual) → (∀ s ∈ b, s.Usual) → a ≠ [] → b ≠ [] →
    svcsText a ++ ascii "]" = svcsText b ++ ascii "]" → a.map Svc.core = b.map Svc.core := by
  have e : ascii "]" = [93] := by decide +kernel
  have e' : ascii "," = [44] := by decide +kernel
  intro a
  induction a with
  | nil => intro b _ _ h _; exact absurd rfl h
  | cons s r ih =>
    intro b ha hb _ hbne h
    cases b with
    | nil => exact absurd rfl hbne
    | cons s' r' =>
      have u := ha s (by simp)
      have u' := hb s' (by simp)
      cases r with
      | nil =>
        cases r' with
        | nil =>
          simp only [svcsText] at h
          obtain ⟨h1, _⟩ := svcText_cut u u' h
          simp [h1]
        | cons t' q' =>
          simp only [svcsText, List.append_assoc] at h
          obtain ⟨_, h2⟩ := svcText_cut u u' h
          rw [e, e'] at h2
          simp at h2
      | cons t q =>
        cases r' with
        | nil =>
          simp only [svcsText, List.append_assoc] at h
          obtain ⟨_, h2⟩ := svcText_cut u u' h
          rw [e, e'] at h2
          simp at h2
        | cons t' q' =>
          simp only [svcsText, List.append_assoc] at h
          obtain ⟨h1, h2⟩ := svcText_cut u u' h
          have h3 := List.append_cancel_left h2
          have := ih (t' :: q') (fun x hx => ha x (List.mem_cons_of_mem _ hx)) (fun x hx => hb x (List.mem_cons_of_mem _ hx)) (by simp) (by simp) h3
          simp only [List.map_cons, List.cons.injEq] at this ⊢
          exact ⟨h1, this⟩

/-- Services with the same text agree in everything the text shows. -/
theorem text_core {a b : List Svc} (ha : ∀ s ∈ a, s.Usual) (hb : ∀ s ∈ b, s.Usual) (h0 : a ≠ []) (h1 : b ≠ []) (h : text a = text b) :
    a.map Svc.core = b.map Svc.core := by
  unfold text at h
  exact svcsText_cut a b ha hb h0 h1 (List.append_cancel_left h)

/-- The time limits and `UseLocalAsHTTPHost` are not in the text. -/
theorem text_of_core {a b : List Svc} (h : a.map Svc.core = b.map Svc.core) : text a = text b := by
  have hs : ∀ s s' : Svc, s.core = s'.core → svcText s = svcText s' := by
    intro s s' h
    simp only [Svc.core, Core.mk.injEq] at h
    unfold svcText
    rw [h.1, h.2.1, h.2.2.1, h.2.2.2]
  have key : ∀ a b : List Svc, a.map Svc.core = b.map Svc.core → svcsText a = svcsText b := by
    intro a
    induction a with
    | nil => intro b h; cases b with
      | nil => rfl
      | cons => simp at h
    | cons s r ih =>
      intro b h
      cases b with
      | nil => simp at h
      | cons s' r' =>
        simp only [List.map_cons, List.cons.injEq] at h
        have h1 := hs s s' h.1
        have h2 := ih r' h.2
        cases r with
        | nil => cases r' with
          | nil => exact h1
          | cons => simp at h
        | cons t q => cases r' with
          | nil => simp at h
          | cons t' q' =>
            simp only [svcsText] at h2 ⊢
            rw [h1, h2]
  unfold text
  rw [key a b h]

/-! ## The options -/

theorem getElem?_mapIdx' {α β : Type} (l : List α) (f : Nat → α → β) (i : Nat) : (l.mapIdx f)[i]? = (l[i]?).map (f i) := by
  rw [List.getElem?_mapIdx]

theorem mergeN_of {d n : Nat} (h : n ≠ 0) : mergeN d n = n := by unfold mergeN; rw [if_neg h]

theorem clamp_of {lo hi n : Nat} (h : lo ≤ n) (h' : n ≤ hi) : clamp lo hi n = n := by
  unfold clamp; rw [if_neg (by omega), if_neg (by omega)]

theorem atLeast1_of {n : Nat} (h : 1 ≤ n) : atLeast1 n = n := by unfold atLeast1; rw [if_neg (by omega)]

theorem webCheck_of (o : Opts V) (h : o.webAddr = [] ∨ (58 : UInt8) ∈ o.webAddr) : webCheck o = o := by
  unfold webCheck
  rw [if_neg]
  rintro ⟨h1, h2⟩
  rcases h with h | h
  · exact h1 h
  · exact h2 h

theorem limits_of (o : Opts V) (hc : 1 ≤ o.conns ∧ o.conns ≤ 10) (hi : 1 ≤ o.idle ∧ o.idle ≤ o.conns) (hw : 1 ≤ o.webrtc ∧ o.webrtc ≤ 50)
    (hf : 1 ≤ o.fwd) : limits o = o := by
  unfold limits
  simp only [clamp_of hc.1 hc.2, clamp_of hi.1 hi.2, clamp_of hw.1 hw.2, atLeast1_of hf]

theorem start_plain (hash : Bytes → H) (sch : List (Field V)) (noArgs : Bool) (rnd : Bytes) (g : Given V) (hp : Plain sch g) :
    (start hash sch noArgs rnd g .started).opts = readOpts sch (if noArgs then ascii "127.0.0.1:7000" else []) g := by
  have hc := hp.conns
  have hi := hp.idle
  have hw := hp.webrtc
  have hf := hp.fwd
  have web : webCheck (merge sch (readOpts sch (if noArgs then ascii "127.0.0.1:7000" else []) g)) =
      readOpts sch (if noArgs then ascii "127.0.0.1:7000" else []) g := by
    have hm : merge sch (readOpts sch (if noArgs then ascii "127.0.0.1:7000" else []) g) =
        readOpts sch (if noArgs then ascii "127.0.0.1:7000" else []) g := by
      have hr : ((readOpts sch (if noArgs then ascii "127.0.0.1:7000" else []) g).rest.mapIdx (fun i v => match sch[i]? with
          | some f => if v = f.zero ∧ f.slice = false ∧ f.dflt ≠ f.zero then f.dflt else v
          | none => v)) = (readOpts sch (if noArgs then ascii "127.0.0.1:7000" else []) g).rest := by
        apply List.ext_getElem?
        intro i
        rw [getElem?_mapIdx']
        simp only [readOpts, getElem?_mapIdx']
        cases hs : sch[i]? with
        | none => rfl
        | some f =>
          simp only [Option.map_some]
          rw [if_neg]
          rintro ⟨h1, h2, h3⟩
          exact h3 (hp.rest i f hs h1 h2)
      unfold merge
      rw [hr]
      have n1 : mergeN 3 (readOpts sch (if noArgs then ascii "127.0.0.1:7000" else []) g).conns = g.conns.getD 3 := mergeN_of (by simp only [readOpts]; omega)
      have n2 : mergeN 1 (readOpts sch (if noArgs then ascii "127.0.0.1:7000" else []) g).idle = g.idle.getD 1 := mergeN_of (by simp only [readOpts]; omega)
      have n3 : mergeN 30 (readOpts sch (if noArgs then ascii "127.0.0.1:7000" else []) g).webrtc = g.webrtc.getD 30 := mergeN_of (by simp only [readOpts]; omega)
      have n4 : mergeN 3 (readOpts sch (if noArgs then ascii "127.0.0.1:7000" else []) g).fwd = g.fwd.getD 3 := mergeN_of (by simp only [readOpts]; omega)
      rw [n1, n2, n3, n4]
      rfl
    rw [hm]
    apply webCheck_of
    have hdef : (58 : UInt8) ∈ ascii "127.0.0.1:7000" := by decide +kernel
    have h3 := hp.webAddr
    cases hg : g.webAddr with
    | none =>
      simp only [readOpts, hg, Option.getD_none]
      cases noArgs with
      | true => exact .inr hdef
      | false => exact .inl rfl
    | some w =>
      simp only [readOpts, hg, Option.getD_some] at h3 ⊢
      exact h3
  simp only [start, web]
  have e1 : withSecret rnd (readOpts sch (if noArgs then ascii "127.0.0.1:7000" else []) g) =
      readOpts sch (if noArgs then ascii "127.0.0.1:7000" else []) g := by
    unfold withSecret
    rw [if_neg (by simp only [readOpts]; exact hp.secret)]
  rw [e1]
  exact limits_of _ hc hi hw hf

theorem same_read (sch : List (Field V)) (web : Bytes) {a b : Given V} (h : SameOptions sch a b) :
    readOpts sch (readOpts sch web a).webAddr b = readOpts sch web a := by
  have hr : sch.mapIdx (fun i f => (b.rest i).getD f.dflt) = sch.mapIdx (fun i f => (a.rest i).getD f.dflt) := by
    apply List.ext_getElem?
    intro i
    rw [getElem?_mapIdx', getElem?_mapIdx']
    cases hs : sch[i]? with
    | none => rfl
    | some f => simp only [Option.map_some]; rw [h.rest i f hs]
  unfold readOpts
  rw [← h.secret, ← h.conns, ← h.idle, ← h.webrtc, ← h.fwd, hr, ← h.webAddr]
  cases a.webAddr <;> rfl

/-! ## C141 -/

/-- A client that was started, and whose options nothing had to change, carries out the reload of services that differ in their prefix, URL,
port or random port, if the other options are what they were. (The hash is assumed not to collide on the two.) -/
theorem reload_applied_partial (hash : Bytes → H) (sch : List (Field V)) (noArgs : Bool) (rnd : Bytes) (g0 g : Given V) (old new : List Svc)
    (hp : Plain sch g0) (ho : SameOptions sch g0 g) (hs0 : g0.svcs = some old) (hs : g.svcs = some new) (hold : old ≠ []) (hne : new ≠ [])
    (hu0 : ∀ s ∈ old, s.Usual) (hu : ∀ s ∈ new, s.Usual) (hd : old.map Svc.core ≠ new.map Svc.core)
    (hh : hash (text new) = hash (text old) → text new = text old) :
    reload hash sch (start hash sch noArgs rnd g0 .started) g =
      (.applied new, ⟨(start hash sch noArgs rnd g0 .started).opts, some (hash (text new))⟩) := by
  have h1 := start_plain hash sch noArgs rnd g0 hp
  have h2 : readOpts sch (start hash sch noArgs rnd g0 .started).opts.webAddr g = (start hash sch noArgs rnd g0 .started).opts := by
    rw [h1]; exact same_read sch _ ho
  have h3 : (start hash sch noArgs rnd g0 .started).sum = some (hash (text old)) := by simp [start, hs0]
  unfold reload
  simp only [h2, h3, hs]
  rw [if_neg (by simp)]
  cases new with
  | nil => exact absurd rfl hne
  | cons x r =>
    rw [if_neg]
    intro he
    exact hd (text_core hu0 hu hold (by simp) (hh he).symm)

/-- What is carried out leaves a client for which the same holds again. -/
theorem reload_again_partial (hash : Bytes → H) (sch : List (Field V)) (web : Bytes) (g0 g : Given V) (old new : List Svc)
    (ho : SameOptions sch g0 g) (hs : g.svcs = some new) (hold : old ≠ []) (hne : new ≠ [])
    (hu0 : ∀ s ∈ old, s.Usual) (hu : ∀ s ∈ new, s.Usual) (hd : old.map Svc.core ≠ new.map Svc.core)
    (hh : hash (text new) = hash (text old) → text new = text old) :
    reload hash sch ⟨readOpts sch web g0, some (hash (text old))⟩ g =
      (.applied new, ⟨readOpts sch web g0, some (hash (text new))⟩) := by
  have h2 := same_read sch web ho
  unfold reload
  simp only [h2, hs]
  rw [if_neg (by simp)]
  cases new with
  | nil => exact absurd rfl hne
  | cons x r =>
    rw [if_neg]
    intro he
    exact hd (text_core hu0 hu hold (by simp) (hh he).symm)

/-- A reload that is not carried out changes nothing. -/
theorem refused_changes_nothing (hash : Bytes → H) (sch : List (Field V)) (run : Run V H) (g : Given V)
    (h : ∀ ss, (reload hash sch run g).1 ≠ .applied ss) : (reload hash sch run g).2 = run := by
  revert h
  unfold reload
  simp only
  split
  · intro _; rfl
  · split
    · intro _; rfl
    · intro _; rfl
    · split
      · intro _; rfl
      · split
        · intro _; rfl
        · intro h; exact absurd rfl (h _)

/-- A reload that is carried out: the services are those of the configuration, there is one at least, and every option is what the client had:
no option change slips in, and none is ignored. -/
theorem applied_sound (hash : Bytes → H) (sch : List (Field V)) (run : Run V H) (g : Given V) (ss : List Svc)
    (h : (reload hash sch run g).1 = .applied ss) :
    g.svcs = some ss ∧ ss ≠ [] ∧ (reload hash sch run g).2 = ⟨run.opts, some (hash (text ss))⟩ ∧
      g.secret.getD [] = run.opts.secret ∧ g.conns.getD 3 = run.opts.conns ∧ g.idle.getD 1 = run.opts.idle ∧
      g.webrtc.getD 30 = run.opts.webrtc ∧ g.fwd.getD 3 = run.opts.fwd ∧ g.webAddr.getD run.opts.webAddr = run.opts.webAddr ∧
      ∀ (i : Nat) (f : Field V), sch[i]? = some f → run.opts.rest[i]? = some ((g.rest i).getD f.dflt) := by
  revert h
  unfold reload
  simp only
  split
  · intro h; cases h
  · rename_i hn
    have he : readOpts sch run.opts.webAddr g = run.opts := Classical.not_not.mp hn
    split
    · intro h; cases h
    · intro h; cases h
    · rename_i ts hts hsv
      split
      · intro h; cases h
      · split
        · intro h; cases h
        · intro h
          cases h
          refine ⟨hsv, hts, by rw [he], congrArg Opts.secret he, congrArg Opts.conns he, congrArg Opts.idle he, congrArg Opts.webrtc he,
            congrArg Opts.fwd he, congrArg Opts.webAddr he, ?_⟩
          intro i f hf
          rw [← congrArg Opts.rest he]
          simp [readOpts, List.getElem?_mapIdx, hf]

/-- Services that have not changed are reported so. -/
theorem unchanged_reported (hash : Bytes → H) (sch : List (Field V)) (noArgs : Bool) (rnd : Bytes) (g0 g : Given V)
    (hp : Plain sch g0) (ho : SameOptions sch g0 g) (ss : List Svc) (h0 : g0.svcs = some ss) (h1 : g.svcs = some ss) (hne : ss ≠ []) :
    (reload hash sch (start hash sch noArgs rnd g0 .started) g).1 = .notChanged := by
  have e1 := start_plain hash sch noArgs rnd g0 hp
  have h2 : readOpts sch (start hash sch noArgs rnd g0 .started).opts.webAddr g = (start hash sch noArgs rnd g0 .started).opts := by
    rw [e1]; exact same_read sch _ ho
  have h3 : (start hash sch noArgs rnd g0 .started).sum = some (hash (text ss)) := by simp [start, h0]
  unfold reload
  simp only [h2, h3, h1]
  rw [if_neg (by simp)]
  cases ss with
  | nil => exact absurd rfl hne
  | cons x r => simp

/-! ### Where it fails -/

/-- (violation) Services that differ only in their time limits or in `UseLocalAsHTTPHost` are taken for unchanged: the reload is refused,
whatever the client. -/
theorem timeout_change_refused (hash : Bytes → H) (sch : List (Field V)) (o : Opts V) (g : Given V) (old new : List Svc)
    (hs : g.svcs = some new) (he : old.map Svc.core = new.map Svc.core) (ss : List Svc) :
    (reload hash sch ⟨o, some (hash (text old))⟩ g).1 ≠ .applied ss := by
  unfold reload
  simp only [hs]
  split
  · simp
  · cases new with
    | nil => simp
    | cons x r => simp [text_of_core he]

/-- The refusal of everything: an option of the running client is not the one the configuration gives. -/
theorem refused_of_ne (hash : Bytes → H) (sch : List (Field V)) (run : Run V H) (g : Given V)
    (h : readOpts sch run.opts.webAddr g ≠ run.opts) : reload hash sch run g = (.optionsChanged, run) := by
  unfold reload
  simp only
  rw [if_pos h]

/-- (violation) A client without a secret makes one up, and then refuses every reload: the secret "has changed". -/
theorem no_secret_no_reload (hash : Bytes → H) (sch : List (Field V)) (noArgs : Bool) (rnd : Bytes) (g0 g : Given V) (st : Stage)
    (hst : st ≠ .noFile) (h0 : g0.secret.getD [] = []) (h1 : g.secret.getD [] = []) (hr : rnd ≠ []) :
    reload hash sch (start hash sch noArgs rnd g0 st) g = (.optionsChanged, start hash sch noArgs rnd g0 st) := by
  apply refused_of_ne
  intro h
  have h2 := congrArg Opts.secret h
  have h3 : (start hash sch noArgs rnd g0 st).opts.secret = rnd := by
    cases st with
    | noFile => exact absurd rfl hst
    | noServices => simp [start, withSecret, webCheck, merge, readOpts, h0]
    | noRemote => simp [start, withSecret, webCheck, merge, readOpts, h0]
    | started => simp [start, limits, withSecret, webCheck, merge, readOpts, h0]
  rw [h3] at h2
  simp only [readOpts] at h2
  rw [h1] at h2
  exact hr h2.symm

/-- (violation) A client with more than ten connections, fewer than one, or more idle ones than connections refuses every reload of the same
options: `Start` has changed the numbers. -/
theorem out_of_range_no_reload (hash : Bytes → H) (sch : List (Field V)) (noArgs : Bool) (rnd : Bytes) (g0 g : Given V)
    (ho : SameOptions sch g0 g)
    (hx : g0.conns.getD 3 = 0 ∨ g0.conns.getD 3 > 10 ∨ g0.idle.getD 1 = 0 ∨ g0.idle.getD 1 > g0.conns.getD 3 ∨ g0.webrtc.getD 30 = 0 ∨
      g0.webrtc.getD 30 > 50 ∨ g0.fwd.getD 3 = 0) :
    reload hash sch (start hash sch noArgs rnd g0 .started) g = (.optionsChanged, start hash sch noArgs rnd g0 .started) := by
  apply refused_of_ne
  intro h
  have h1 := congrArg Opts.conns h
  have h2 := congrArg Opts.idle h
  have h3 := congrArg Opts.webrtc h
  have h4 := congrArg Opts.fwd h
  simp only [start, limits, withSecret, webCheck, merge, readOpts] at h1 h2 h3 h4
  rw [← ho.conns] at h1
  rw [← ho.idle] at h2
  rw [← ho.webrtc] at h3
  rw [← ho.fwd] at h4
  generalize g0.conns.getD 3 = c at *
  generalize g0.idle.getD 1 = i at *
  generalize g0.webrtc.getD 30 = w at *
  generalize g0.fwd.getD 3 = f at *
  clear h ho
  unfold clamp at h2
  unfold clamp at h1 h3
  unfold atLeast1 at h4
  unfold mergeN at h1 h2 h3 h4
  rcases hx with hx | hx | hx | hx | hx | hx | hx <;> grind

/-- (violation) So does a client for which an option was set to zero (or empty, or false) that has another default: `New` has put the default
back, the reload has not. -/
theorem explicit_zero_no_reload (hash : Bytes → H) (sch : List (Field V)) (noArgs : Bool) (rnd : Bytes) (g0 g : Given V) (st : Stage)
    (i : Nat) (f : Field V) (hf : sch[i]? = some f) (hs : f.slice = false) (hd : f.dflt ≠ f.zero)
    (h0 : g0.rest i = some f.zero) (h1 : g.rest i = some f.zero) :
    reload hash sch (start hash sch noArgs rnd g0 st) g = (.optionsChanged, start hash sch noArgs rnd g0 st) := by
  apply refused_of_ne
  intro h
  have h2 := congrArg (fun o => o.rest[i]?) h
  have h3 : (start hash sch noArgs rnd g0 st).opts.rest[i]? = some f.dflt := by
    cases st <;> simp [start, limits, withSecret, webCheck, merge, readOpts, List.getElem?_mapIdx, hf, h0, hs, hd]
  rw [h3] at h2
  simp [readOpts, List.getElem?_mapIdx, hf, h1] at h2
  exact hd h2.symm

/-- (violation) So does a client whose web address was given without a colon (a port alone), although web options are meant to be ignored. -/
theorem port_only_no_reload (hash : Bytes → H) (sch : List (Field V)) (noArgs : Bool) (rnd : Bytes) (g0 g : Given V) (st : Stage)
    (w : Bytes) (hw : w ≠ []) (hc : (58 : UInt8) ∉ w) (h0 : g0.webAddr = some w) (h1 : g.webAddr = some w) :
    reload hash sch (start hash sch noArgs rnd g0 st) g = (.optionsChanged, start hash sch noArgs rnd g0 st) := by
  apply refused_of_ne
  intro h
  have h2 := congrArg Opts.webAddr h
  have h3 : (start hash sch noArgs rnd g0 st).opts.webAddr = 58 :: w := by
    cases st <;> simp [start, limits, withSecret, webCheck, merge, readOpts, h0, hw, hc]
  rw [h3] at h2
  simp only [readOpts, h1, Option.getD_some] at h2
  have := congrArg List.length h2
  simp at this

/-- (violation) A client with a web address whose services were refused at the start, or that found no configuration file, is killed by the
reload that would put this right. -/
theorem first_reload_panics (hash : Bytes → H) (sch : List (Field V)) (run : Run V H) (g : Given V) (ss : List Svc) (hs : g.svcs = some ss)
    (hne : ss ≠ []) (ho : readOpts sch run.opts.webAddr g = run.opts) (hn : run.sum = none) :
    (reload hash sch run g).1 = .panic := by
  unfold reload
  cases ss with
  | nil => exact absurd rfl hne
  | cons x r => simp [ho, hs, hn]

/-- The clients of the last theorem: started with plain options, but without services that could be used. -/
theorem first_reload_panics_plain (hash : Bytes → H) (sch : List (Field V)) (noArgs : Bool) (rnd : Bytes) (g0 g : Given V) (st : Stage)
    (hst : st = .noFile ∨ st = .noServices) (hp : Plain sch g0) (ho : SameOptions sch g0 g) (ss : List Svc) (hs : g.svcs = some ss)
    (hne : ss ≠ []) : (reload hash sch (start hash sch noArgs rnd g0 st) g).1 = .panic := by
  have e1 := start_plain hash sch noArgs rnd g0 hp
  have e2 := same_read sch (if noArgs then ascii "127.0.0.1:7000" else []) ho
  have key : (start hash sch noArgs rnd g0 st).opts = readOpts sch (if noArgs then ascii "127.0.0.1:7000" else []) g0 := by
    rw [← e1]
    have hsec : (webCheck (merge sch (readOpts sch (if noArgs then ascii "127.0.0.1:7000" else []) g0))).secret ≠ [] := by
      simp only [webCheck, merge, readOpts]; exact hp.secret
    have w : withSecret rnd (webCheck (merge sch (readOpts sch (if noArgs then ascii "127.0.0.1:7000" else []) g0))) =
        webCheck (merge sch (readOpts sch (if noArgs then ascii "127.0.0.1:7000" else []) g0)) := by
      unfold withSecret; rw [if_neg hsec]
    have l : limits (webCheck (merge sch (readOpts sch (if noArgs then ascii "127.0.0.1:7000" else []) g0))) =
        webCheck (merge sch (readOpts sch (if noArgs then ascii "127.0.0.1:7000" else []) g0)) := by
      have hc := hp.conns
      have hi := hp.idle
      have hw := hp.webrtc
      have hf := hp.fwd
      apply limits_of <;> simp only [webCheck, merge, readOpts]
      · rw [mergeN_of (by omega)]; exact hc
      · rw [mergeN_of (by omega), mergeN_of (by omega)]; exact hi
      · rw [mergeN_of (by omega)]; exact hw
      · rw [mergeN_of (by omega)]; exact hf
    rcases hst with rfl | rfl
    · simp only [start, w, l]
    · simp only [start, w, l]
  apply first_reload_panics hash sch _ g ss hs hne
  · rw [key]; exact e2
  · rcases hst with rfl | rfl <;> rfl

/-- (violation) A client that could make out no remote is told that its reload went well, although it does not run. -/
theorem stopped_reports_success (hash : Bytes → Bytes) (hh : hash = id) :
    ∃ (g0 g : Given Nat) (ss : List Svc), (reload hash [] (start hash [] false [] g0 .noRemote) g).1 = .applied ss := by
  subst hh
  refine ⟨{ secret := some (ascii "s"), svcs := some [⟨ascii "a", ascii "http://x", 0, false, 1, false⟩] },
    { secret := some (ascii "s"), svcs := some [⟨ascii "b", ascii "http://x", 0, false, 1, false⟩] },
    [⟨ascii "b", ascii "http://x", 0, false, 1, false⟩], ?_⟩
  decide +kernel

/-! ### Cases -/

/-- Options as in `README.md`: an id, a secret and a remote. -/
def g0 : Given Nat where
  secret := some (ascii "secret")
  rest := fun i => if i = 0 then some 5 else none
  svcs := some [⟨ascii "www", ascii "http://127.0.0.1:80", 0, false, 120, false⟩]

def sch0 : List (Field Nat) := [⟨0, 0, false⟩, ⟨0, 45, false⟩]

theorem g0_plain : Plain sch0 g0 := by
  refine ⟨by decide +kernel, by decide, by decide, by decide, by decide, .inl rfl, ?_⟩
  intro i f hf h1 h2
  match i with
  | 0 => simp [sch0] at hf; subst hf; rfl
  | 1 => simp [sch0] at hf; subst hf; simp [g0] at h1
  | i + 2 => simp [sch0] at hf

/-- The port of a service is added and removed; a time limit is changed in vain. -/
example :
    let g1 : Given Nat := { g0 with svcs := some [⟨ascii "www", ascii "http://127.0.0.1:80", 0, false, 120, false⟩, ⟨[], ascii "tcp://127.0.0.1:22", 2222, false, 120, false⟩] }
    let g2 : Given Nat := { g0 with svcs := some [⟨ascii "www", ascii "http://127.0.0.1:80", 0, false, 5, true⟩] }
    let r := start (id : Bytes → Bytes) sch0 false [1] g0 .started
    (∃ ss, (reload id sch0 r g1).1 = .applied ss ∧ ss.length = 2) ∧ (reload id sch0 r g2).1 = .notChanged := by
  exact ⟨⟨[⟨ascii "www", ascii "http://127.0.0.1:80", 0, false, 120, false⟩, ⟨[], ascii "tcp://127.0.0.1:22", 2222, false, 120, false⟩],
    by decide +kernel, rfl⟩, by decide +kernel⟩

end Verif.Reload.Decide
