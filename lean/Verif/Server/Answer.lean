import Verif.Handshake.Inv
import Verif.Server.Announce
import Verif.Registry.Model
set_option linter.unusedSimpArgs false
set_option linter.unusedVariables false
/-!
# C136: a tunnel that asks to be registered is answered, and the answer is true
(libcs/server/conn.go:117-165 `handle`, 350-522 `handleTunnel`, 633-781 `parseOptions`; libcs/server/client.go:105-180 `addTunnel`;
libcs/conn/conn.go:249-320)

The user of a client that is refused learns the reason only from the error signal of the server. Here: everything the server writes on a
connection from its first byte until it is a tunnel or is given up, as a function of the bytes that arrive. The byte level is that of
`Verif.Handshake`; what the authentication and `addTunnel` decide is given (first part), and compared with the state of the server
(second part, `Verif.Registry`). The writes themselves succeed.
-/
namespace Verif.Server.Answer
open Verif Verif.Handshake
open Verif.Server.Announce (Msg Err)

/-- What `addTunnel` came to (libcs/server/client.go:105-265), in at most five attempts (libcs/server/conn.go:490-508). `ports`:
the ports announced on the way (libcs/server/conn.go:1103-1171). -/
inductive Add where
  | ok (ports : List (Nat × Nat))
  | maxConnections
  | differentConfig
  | hostConflict
  /-- port `si` could not be opened -/
  | failedPort (ports : List (Nat × Nat)) (si : Nat)
  /-- the user has no right to ports -/
  | noPorts
  /-- five times the client object was just being removed -/
  | lost
deriving DecidableEq, Repr

structure Env where
  /-- the address has failed too often (libcs/server/conn.go:150-156) -/
  blocked : Bool
  /-- `authUser` is nil: a platform decides (libcs/server/conn.go:402, 434) -/
  api : Bool
  /-- libcs/server/conn.go:404 `authUser`, and the limits of the user it returns -/
  auth : Bytes → Bytes → Option Limits
  /-- the limits of the server, with which the options are read if a platform decides (libcs/server/conn.go:435-440) -/
  lim : Limits
  /-- libcs/server/conn.go:450 `authUserWithAPI` with the prefixes asked for -/
  platform : Bytes → Bytes → List Bytes → Bool
  /-- libcs/server/conn.go:490-508 -/
  add : Bytes → Reg → Add

/-- libcs/server/conn.go:641-646, 676, 690, 724, 756: what `parseOptions` sends before it gives up. -/
def optionsMsg : PErr → List Msg
  | .reachedMaxOptions => [.err .reachedMaxOptions]
  | .hostNumberLimited => [.err .hostNumberLimited]
  | .tcpNumberLimited => [.err .tcpNumberLimited]
  | .hostRegexMismatch => [.err .hostRegexMismatch]
  | .eof => []
  | .invalidOption => []

/-- libcs/server/client.go:112-175, libcs/server/conn.go:551, 1127-1156: what `addTunnel` sends, then libcs/server/conn.go:509-514. -/
def addMsg (a : Add) : List Msg :=
  match a with
  | .ok ports => ports.map (fun x => .opened x.1 x.2) ++ [.ready]
  | .maxConnections => [.err .reachedMaxConnections]
  | .differentConfig => [.err .differentConfigClientConnected]
  | .hostConflict => [.err .hostConflict]
  | .failedPort ports si => ports.map (fun x => .opened x.1 x.2) ++ [.failedTCP si]
  | .noPorts => [.err .tcpNumberLimited]
  | .lost => []

/-- libcs/server/conn.go:350-514 `handleTunnel` (a first registration): what is sent, and whether the connection is a tunnel now. -/
def handleTunnel (e : Env) (inp : Bytes) : List Msg × Bool :=
  match parseIdSecret inp with
  | .error _ => ([], false)
  | .ok ((id, secret), inp) =>
    if e.api then
      match parseOptions e.lim id inp with
      | none => ([], false)
      | some (.error x) => (optionsMsg x, false)
      | some (.ok (reg, _)) =>
        if e.platform id secret reg.ids.keys then (addMsg (e.add id reg), (match e.add id reg with | .ok _ => true | _ => false))
        else ([.err .invalidIDAndSecret], false)
    else
      match e.auth id secret with
      | none => ([.err .invalidIDAndSecret], false)
      | some lim =>
        match parseOptions lim id inp with
        | none => ([], false)
        | some (.error x) => (optionsMsg x, false)
        | some (.ok (reg, _)) => (addMsg (e.add id reg), (match e.add id reg with | .ok _ => true | _ => false))

/-- libcs/server/conn.go:117-165 `handle`, for a connection that begins like a tunnel. -/
def handle (e : Env) (inp : Bytes) : List Msg × Bool :=
  match inp with
  | m :: v :: inp => if m = 0xF0 ∧ v = 0x01 then (if e.blocked then ([], false) else handleTunnel e inp) else ([], false)
  | _ => ([], false)

/-! ## Specification -/

/-- The bytes of a request: magic number, version, id, secret, options. -/
def request (id secret : Bytes) (os : List Opt) : Bytes :=
  [0xF0, 0x01] ++ (UInt8.ofNat id.length :: id) ++ (UInt8.ofNat secret.length :: secret) ++ encOpts os

/-- A request that the protocol can express. -/
structure WellFormed (id secret : Bytes) (os : List Opt) : Prop where
  id_len : id.length < 256
  secret_len : secret.length < 256
  valid : ∀ o ∈ os, o.Valid
  complete : Complete 1 os

/-- The limits under which the request is read. -/
def Env.limits (e : Env) (id secret : Bytes) (lim : Limits) : Prop :=
  (e.api = true ∧ lim = e.lim) ∨ (e.api = false ∧ e.auth id secret = some lim)

/-- A refusal and its reason. -/
def True' (e : Env) (id secret : Bytes) (os : List Opt) : Msg → Prop
  | .err .invalidIDAndSecret =>
    (e.api = false ∧ e.auth id secret = none) ∨ (e.api = true ∧ ∃ prefixes, e.platform id secret prefixes = false)
  | .err .reachedMaxOptions => ∃ lim, e.limits id secret lim ∧ lim.maxOptions < os.length
  | .err .hostNumberLimited => ∃ lim, e.limits id secret lim ∧ lim.hostNumber ≠ 0 ∧
      lim.hostNumber < os.countP (fun o => (o.host? lim.withID id).isSome)
  | .err .hostRegexMismatch => ∃ lim, e.limits id secret lim ∧ lim.regex ≠ [] ∧
      ∃ tls p, Opt.host tls p ∈ os ∧ ∀ r ∈ lim.regex, r p = false
  | .err .tcpNumberLimited => (∃ lim, e.limits id secret lim ∧ lim.tcpNumber ≠ 0 ∧
      lim.tcpNumber < os.countP (fun o => o.tcp?.isSome)) ∨ ∃ reg, e.add id reg = .noPorts
  | .err .reachedMaxConnections => ∃ reg, e.add id reg = .maxConnections
  | .err .differentConfigClientConnected => ∃ reg, e.add id reg = .differentConfig
  | .err .hostConflict => ∃ reg, e.add id reg = .hostConflict
  | .failedTCP si => ∃ reg ports, e.add id reg = .failedPort ports si
  | _ => False

/-! ## Proofs -/

/-- Reading a complete list of options gives what applying them gives, failures included. -/
theorem parseLoop_enc {lim : Limits} {id : Bytes} {st : PState} {rest : Bytes} (os : List Opt) (hv : ∀ o ∈ os, Opt.Valid o)
    (hc : Complete st.left os) (fuel : Nat) (hf : (encOpts os).length < fuel) :
    parseLoop lim id fuel st (encOpts os ++ rest) = some ((applyOpts lim id st os).map (fun st => (st, rest))) := by
  induction os generalizing st fuel with
  | nil =>
    obtain ⟨n, rfl⟩ : ∃ n, fuel = n + 1 := ⟨fuel - 1, by omega⟩
    have : st.left = 0 := by cases h : st.left with
      | zero => rfl
      | succ n => rw [h] at hc; cases hc
    simp [parseLoop, this, encOpts, applyOpts, Except.map]
  | cons o os ih =>
    obtain ⟨n, rfl⟩ : ∃ n, fuel = n + 1 := ⟨fuel - 1, by omega⟩
    have hl0 : st.left ≠ 0 := by intro h; rw [h] at hc; cases hc
    have hlen := enc_length_pos o
    simp only [encOpts, List.flatMap_cons, List.length_append] at hf
    simp only [parseLoop, hl0, if_false, encOpts, List.flatMap_cons, List.append_assoc,
      parseStep_enc lim id st o (hv o (by simp)), applyOpts]
    cases hoa : applyOpt lim id st o with
    | error x => simp [Except.map]
    | ok st1 =>
      have hl := applyOpt_left hoa
      simp only [Except.map]
      refine ih (fun x hx => hv x (by simp [hx])) ?_ n (by simp only [encOpts]; omega)
      generalize st.left = k at hc hl
      cases hc with
      | next h => simp at hl; rw [hl]; exact h
      | svc hn h => simp [hn] at hl; rw [hl]; exact h

theorem parseOptions_enc (lim : Limits) (id : Bytes) (os : List Opt) (hv : ∀ o ∈ os, Opt.Valid o) (hc : Complete 1 os) :
    parseOptions lim id (encOpts os) = some ((applyOpts lim id .init os).map (fun st => (⟨st.ids, st.ports⟩, []))) := by
  have := parseLoop_enc (lim := lim) (id := id) (st := .init) (rest := []) os hv hc ((encOpts os).length + 1) (by omega)
  rw [List.append_nil] at this
  simp only [parseOptions, this]
  cases applyOpts lim id .init os <;> rfl

/-- What is known while options are applied: how much has been counted. -/
structure Cnt (lim : Limits) (id : Bytes) (done : List Opt) (st : PState) : Prop where
  count : st.count ≤ done.length
  ids : st.ids.length ≤ done.countP (fun o => (o.host? lim.withID id).isSome)
  ports : st.ports.length ≤ done.countP (fun o => o.tcp?.isSome)

theorem idHost_isSome (w : Bool) (id : Bytes) (tls : Bool) : (Opt.host? w id (.idHost tls)).isSome = true := rfl
theorem host_isSome (w : Bool) (id : Bytes) (tls : Bool) (p : Bytes) : (Opt.host? w id (.host tls p)).isSome = true := rfl
theorem tcp_isSome (r : UInt8) (p : Nat) : (Opt.tcp? (.tcp r p)).isSome = true := rfl

theorem cnt_step {lim : Limits} {id : Bytes} {done : List Opt} {st st' : PState} {o : Opt} (hi : Cnt lim id done st)
    (h : applyOpt lim id st o = .ok st') : Cnt lim id (done ++ [o]) st' := by
  obtain ⟨h1, h2, h3⟩ := hi
  have hinc : inc16 st.count ≤ done.length + 1 := by simp only [inc16]; omega
  unfold applyOpt at h
  split at h
  · simp at h
  cases o with
  | next => simp at h; subst h; exact ⟨by simpa using hinc, by simpa [Opt.host?] using h2, by simpa [Opt.tcp?] using h3⟩
  | idHost tls =>
    simp only at h
    split at h
    · simp at h
    simp at h; subst h
    refine ⟨by simpa using hinc, ?_, by simpa [Opt.tcp?] using h3⟩
    have := AMap.length_set_le st.ids id ⟨st.si, tls⟩
    simp only [List.countP_append, List.countP_cons, List.countP_nil, idHost_isSome, host_isSome, if_true]
    omega
  | tcp r p =>
    simp only at h
    split at h
    · simp at h
    simp at h; subst h
    refine ⟨by simpa using hinc, by simpa [Opt.host?] using h2, ?_⟩
    have := AMap.length_set_le st.ports st.si ⟨p, r != 0⟩
    simp only [List.countP_append, List.countP_cons, List.countP_nil, tcp_isSome, if_true]
    omega
  | host tls pfx =>
    simp only at h
    split at h
    · simp at h
    split at h
    · simp at h
    simp at h; subst h
    refine ⟨by simpa using hinc, ?_, by simpa [Opt.tcp?] using h3⟩
    have := AMap.length_set_le st.ids (if lim.withID = true then id ++ 0x2D :: pfx else pfx) ⟨st.si, tls⟩
    simp only [List.countP_append, List.countP_cons, List.countP_nil, idHost_isSome, host_isSome, if_true]
    omega

/-- Why applying options fails. -/
theorem applyOpts_error {lim : Limits} {id : Bytes} (os : List Opt) : ∀ {done : List Opt} {st : PState} {x : PErr},
    Cnt lim id done st → applyOpts lim id st os = .error x →
    (x = .reachedMaxOptions ∧ lim.maxOptions < (done ++ os).length) ∨
    (x = .hostNumberLimited ∧ lim.hostNumber ≠ 0 ∧ lim.hostNumber < (done ++ os).countP (fun o => (o.host? lim.withID id).isSome)) ∨
    (x = .tcpNumberLimited ∧ lim.tcpNumber ≠ 0 ∧ lim.tcpNumber < (done ++ os).countP (fun o => o.tcp?.isSome)) ∨
    (x = .hostRegexMismatch ∧ lim.regex ≠ [] ∧ ∃ tls p, Opt.host tls p ∈ os ∧ ∀ r ∈ lim.regex, r p = false) := by
  induction os with
  | nil => intro done st x _ h; simp [applyOpts] at h
  | cons o os ih =>
    intro done st x hi h
    simp only [applyOpts] at h
    cases ho : applyOpt lim id st o with
    | ok st1 =>
      rw [ho] at h
      have := ih (cnt_step hi ho) h
      simp only [List.append_assoc, List.cons_append, List.nil_append] at this
      rcases this with h | h | h | ⟨h1, h2, tls, p, h3, h4⟩
      · exact .inl h
      · exact .inr (.inl h)
      · exact .inr (.inr (.inl h))
      · exact .inr (.inr (.inr ⟨h1, h2, tls, p, List.mem_cons_of_mem _ h3, h4⟩))
    | error y =>
      rw [ho] at h
      simp at h; subst h
      obtain ⟨h1, h2, h3⟩ := hi
      unfold applyOpt at ho
      split at ho
      · rename_i hc
        simp at ho; subst ho
        left
        refine ⟨rfl, ?_⟩
        simp only [List.length_append, List.length_cons]
        have : (st.count + 1) % 65536 ≤ st.count + 1 := Nat.mod_le _ _
        omega
      · cases o with
        | next => simp at ho
        | idHost tls =>
          simp only at ho
          split at ho
          · rename_i hh
            simp at ho; subst ho
            right; left
            refine ⟨rfl, hh.1, ?_⟩
            have hm : (st.ids.length + 1) % 4294967296 ≤ st.ids.length + 1 := Nat.mod_le _ _
            have h5 := hh.2
            simp only [List.countP_append, List.countP_cons, idHost_isSome, host_isSome, if_true]
            omega
          · simp at ho
        | tcp r p =>
          simp only at ho
          split at ho
          · rename_i hh
            simp at ho; subst ho
            right; right; left
            refine ⟨rfl, hh.1, ?_⟩
            have hm : (st.ports.length + 1) % 65536 ≤ st.ports.length + 1 := Nat.mod_le _ _
            have h5 := hh.2
            simp only [List.countP_append, List.countP_cons, tcp_isSome, if_true]
            omega
          · simp at ho
        | host tls pfx =>
          simp only at ho
          split at ho
          · rename_i hh
            simp at ho; subst ho
            right; left
            refine ⟨rfl, hh.1, ?_⟩
            have hm : (st.ids.length + 1) % 4294967296 ≤ st.ids.length + 1 := Nat.mod_le _ _
            have h5 := hh.2
            simp only [List.countP_append, List.countP_cons, idHost_isSome, host_isSome, if_true]
            omega
          · split at ho
            · rename_i hr
              simp at ho; subst ho
              right; right; right
              refine ⟨rfl, ?_, tls, pfx, by simp, ?_⟩
              · intro h0; simp [h0] at hr
              · intro r hm
                have hr2 := hr.2
                simp only [Bool.not_eq_true, List.any_eq_false] at hr2
                simpa using hr2 r hm
            · simp at ho

theorem parseIdSecret_request (id secret rest : Bytes) (h1 : id.length < 256) (h2 : secret.length < 256) :
    parseIdSecret ((UInt8.ofNat id.length :: id) ++ (UInt8.ofNat secret.length :: secret) ++ rest) = .ok ((id, secret), rest) := by
  have e1 : (UInt8.ofNat id.length).toNat = id.length := u8_ofNat_toNat h1
  have e2 : (UInt8.ofNat secret.length).toNat = secret.length := u8_ofNat_toNat h2
  simp only [List.cons_append, List.append_assoc, parseIdSecret, readByte, bind, Except.bind, e1, e2, readN_append]
  rw [if_neg (by omega), if_neg (by omega)]

theorem handle_request (e : Env) (id secret : Bytes) (os : List Opt) (hw : WellFormed id secret os) (hb : e.blocked = false) :
    handle e (request id secret os) =
      if e.api then
        match applyOpts e.lim id .init os with
        | .error x => (optionsMsg x, false)
        | .ok st =>
          if e.platform id secret st.ids.keys then
            (addMsg (e.add id ⟨st.ids, st.ports⟩), (match e.add id ⟨st.ids, st.ports⟩ with | .ok _ => true | _ => false))
          else ([.err .invalidIDAndSecret], false)
      else
        match e.auth id secret with
        | none => ([.err .invalidIDAndSecret], false)
        | some lim =>
          match applyOpts lim id .init os with
          | .error x => (optionsMsg x, false)
          | .ok st => (addMsg (e.add id ⟨st.ids, st.ports⟩), (match e.add id ⟨st.ids, st.ports⟩ with | .ok _ => true | _ => false)) := by
  have hp := parseIdSecret_request id secret (encOpts os) hw.id_len hw.secret_len
  have ho := fun lim => parseOptions_enc lim id os hw.valid hw.complete
  have h0 : handle e (request id secret os) =
      handleTunnel e ((UInt8.ofNat id.length :: id) ++ (UInt8.ofNat secret.length :: secret) ++ encOpts os) := by
    simp only [handle, request, List.cons_append, List.nil_append, List.append_assoc]
    rw [hb]
    simp
  rw [h0]
  unfold handleTunnel
  rw [hp]
  simp only [ho]
  cases e.api with
  | true =>
    simp only [if_true]
    cases applyOpts e.lim id .init os <;> rfl
  | false =>
    simp only [Bool.false_eq_true, if_false]
    cases e.auth id secret with
    | none => rfl
    | some lim =>
      dsimp only
      cases applyOpts lim id .init os <;> rfl

theorem addMsg_shape (a : Add) (h : a ≠ .lost) : ∃ (ports : List (Nat × Nat)) (m : Msg),
    addMsg a = ports.map (fun x => .opened x.1 x.2) ++ [m] ∧
    ((∃ p, a = .ok p) ∧ m = .ready ∨ (∀ p, a ≠ .ok p) ∧ ((∃ x, m = .err x) ∨ ∃ si, m = .failedTCP si)) := by
  cases a with
  | ok p => exact ⟨p, .ready, rfl, .inl ⟨⟨p, rfl⟩, rfl⟩⟩
  | maxConnections => exact ⟨[], _, rfl, .inr ⟨by simp, .inl ⟨_, rfl⟩⟩⟩
  | differentConfig => exact ⟨[], _, rfl, .inr ⟨by simp, .inl ⟨_, rfl⟩⟩⟩
  | hostConflict => exact ⟨[], _, rfl, .inr ⟨by simp, .inl ⟨_, rfl⟩⟩⟩
  | failedPort p si => exact ⟨p, .failedTCP si, rfl, .inr ⟨by simp, .inr ⟨si, rfl⟩⟩⟩
  | noPorts => exact ⟨[], _, rfl, .inr ⟨by simp, .inl ⟨_, rfl⟩⟩⟩
  | lost => exact absurd rfl h

theorem init_cnt (lim : Limits) (id : Bytes) : Cnt lim id [] .init := ⟨by simp [PState.init], by simp [PState.init], by simp [PState.init]⟩

/-- **C136, told, and told the truth** (partial): a complete request from an address that is not locked out is answered with the ports
that were opened for it and then with one word: that it is a tunnel now, exactly if it is; or else an error, and what the error says is so.
Missing: the refusals of `locked_out_is_not_told`, `unknown_option_is_not_told` and `lost_races_are_not_told`. -/
theorem refused_is_told_partial (e : Env) (id secret : Bytes) (os : List Opt) (hw : WellFormed id secret os)
    (hb : e.blocked = false) (hl : ∀ reg, e.add id reg ≠ .lost) :
    ∃ (ports : List (Nat × Nat)) (m : Msg), (handle e (request id secret os)).1 = ports.map (fun x => .opened x.1 x.2) ++ [m] ∧
      ((handle e (request id secret os)).2 = true ∧ m = .ready ∨
       (handle e (request id secret os)).2 = false ∧ m ≠ .ready ∧ True' e id secret os m) := by
  rw [handle_request e id secret os hw hb]
  have hadd : ∀ reg, ∃ (ports : List (Nat × Nat)) (m : Msg), addMsg (e.add id reg) = ports.map (fun x => .opened x.1 x.2) ++ [m] ∧
      ((match e.add id reg with | .ok _ => true | _ => false) = true ∧ m = .ready ∨
       (match e.add id reg with | .ok _ => true | _ => false) = false ∧ m ≠ .ready ∧ True' e id secret os m) := by
    intro reg
    have := hl reg
    cases ha : e.add id reg with
    | ok p => exact ⟨p, .ready, rfl, .inl ⟨rfl, rfl⟩⟩
    | maxConnections => exact ⟨[], _, rfl, .inr ⟨rfl, by simp, reg, ha⟩⟩
    | differentConfig => exact ⟨[], _, rfl, .inr ⟨rfl, by simp, reg, ha⟩⟩
    | hostConflict => exact ⟨[], _, rfl, .inr ⟨rfl, by simp, reg, ha⟩⟩
    | failedPort p si => exact ⟨p, .failedTCP si, rfl, .inr ⟨rfl, by simp, reg, p, ha⟩⟩
    | noPorts => exact ⟨[], _, rfl, .inr ⟨rfl, by simp, .inr ⟨reg, ha⟩⟩⟩
    | lost => exact absurd ha this
  have herr : ∀ lim x, e.limits id secret lim → applyOpts lim id .init os = .error x →
      ∃ (ports : List (Nat × Nat)) (m : Msg), optionsMsg x = ports.map (fun x => .opened x.1 x.2) ++ [m] ∧
        m ≠ .ready ∧ True' e id secret os m := by
    intro lim x hlim hx
    have := applyOpts_error os (init_cnt lim id) hx
    simp only [List.nil_append] at this
    rcases this with ⟨rfl, h⟩ | ⟨rfl, h⟩ | ⟨rfl, h⟩ | ⟨rfl, h⟩
    · exact ⟨[], _, rfl, by simp, lim, hlim, h⟩
    · exact ⟨[], _, rfl, by simp, lim, hlim, h⟩
    · exact ⟨[], _, rfl, by simp, .inl ⟨lim, hlim, h⟩⟩
    · exact ⟨[], _, rfl, by simp, lim, hlim, h⟩
  cases hapi : e.api with
  | true =>
    simp only [if_true]
    cases hx : applyOpts e.lim id .init os with
    | error x =>
      obtain ⟨p, m, h1, h2, h3⟩ := herr e.lim x (.inl ⟨hapi, rfl⟩) hx
      exact ⟨p, m, h1, .inr ⟨rfl, h2, h3⟩⟩
    | ok st =>
      dsimp only
      cases hpl : e.platform id secret st.ids.keys with
      | true => exact hadd _
      | false => exact ⟨[], _, rfl, .inr ⟨rfl, by simp, .inr ⟨hapi, _, hpl⟩⟩⟩
  | false =>
    simp only [Bool.false_eq_true, if_false]
    cases hau : e.auth id secret with
    | none => exact ⟨[], _, rfl, .inr ⟨rfl, by simp, .inl ⟨hapi, hau⟩⟩⟩
    | some lim =>
      dsimp only
      cases hx : applyOpts lim id .init os with
      | error x =>
        obtain ⟨p, m, h1, h2, h3⟩ := herr lim x (.inr ⟨hapi, hau⟩) hx
        exact ⟨p, m, h1, .inr ⟨rfl, h2, h3⟩⟩
      | ok st => exact hadd _

/-- **C136, and the client reads it**: the client takes exactly these messages out of the bytes, in this order. -/
theorem client_reads_the_answer (e : Env) (inp rest : Bytes) (hf : ∀ m ∈ (handle e inp).1, m.Fits) :
    Announce.readN (handle e inp).1.length (((handle e inp).1.map Msg.enc).flatten ++ rest) =
      some ((handle e inp).1.map Announce.Got.msg, rest) := Announce.messages_understood _ hf rest

/-- **C136, who satisfies the limits is not refused for them**: a request whose options are within the limits that hold for it is refused, if
at all, for its credentials or by `addTunnel`. -/
theorem within_limits_not_refused (e : Env) (id secret : Bytes) (os : List Opt) (hw : WellFormed id secret os)
    (hb : e.blocked = false) (lim : Limits) (hlim : e.limits id secret lim) (hmax : lim.maxOptions < 65536)
    (hc : os.length ≤ lim.maxOptions)
    (hh : lim.hostNumber = 0 ∨ os.countP (fun o => (o.host? lim.withID id).isSome) ≤ lim.hostNumber)
    (ht : lim.tcpNumber = 0 ∨ os.countP (fun o => o.tcp?.isSome) ≤ lim.tcpNumber)
    (hr : ∀ tls p, Opt.host tls p ∈ os → lim.regex = [] ∨ ∃ r ∈ lim.regex, r p = true) :
    ∃ reg : Reg, handle e (request id secret os) =
        (addMsg (e.add id reg), (match e.add id reg with | .ok _ => true | _ => false)) ∨
      (e.api = true ∧ e.platform id secret reg.ids.keys = false ∧ handle e (request id secret os) = ([.err .invalidIDAndSecret], false)) := by
  obtain ⟨st, hst⟩ := applyOpts_ok (id := id) hmax os (st := .init) (by simp [PState.init]; exact hc)
    (by simpa [PState.init] using hh) (by simpa [PState.init] using ht) hr
  refine ⟨⟨st.ids, st.ports⟩, ?_⟩
  rw [handle_request e id secret os hw hb]
  rcases hlim with ⟨h1, rfl⟩ | ⟨h1, h2⟩
  · simp only [h1, if_true, hst]
    cases hp : e.platform id secret st.ids.keys with
    | true => left; rfl
    | false => right; exact ⟨trivial, rfl, rfl⟩
  · left
    simp only [h1, Bool.false_eq_true, if_false, h2, hst]

theorem ready_in_addMsg (a : Add) : Msg.ready ∈ addMsg a ↔ (match a with | .ok _ => true | _ => false) = true := by
  cases a <;> simp [addMsg]

theorem no_ready_in_options (x : PErr) : Msg.ready ∉ optionsMsg x := by cases x <;> simp [optionsMsg]

/-- **C136, "ready" is said exactly to those who are in**: for all bytes that may come, the connection is a tunnel afterwards if and only if
the client has been told so; and then they began with the magic number and the version. -/
theorem ready_iff_tunnel (e : Env) (inp : Bytes) : Msg.ready ∈ (handle e inp).1 ↔ (handle e inp).2 = true := by
  have key : ∀ inp, Msg.ready ∈ (handleTunnel e inp).1 ↔ (handleTunnel e inp).2 = true := by
    intro inp
    unfold handleTunnel
    split
    · simp
    · split
      · split
        · simp
        · rename_i x _; simp [no_ready_in_options]
        · split
          · exact ready_in_addMsg _
          · simp
      · split
        · simp
        · split
          · simp
          · rename_i x _; simp [no_ready_in_options]
          · exact ready_in_addMsg _
  unfold handle
  split
  · split
    · split
      · simp
      · exact key _
    · simp
  · simp

theorem tunnel_needs_magic (e : Env) (inp : Bytes) (h : handle e inp ≠ ([], false)) : ∃ rest, inp = 0xF0 :: 0x01 :: rest := by
  unfold handle at h
  split at h
  · split at h
    · rename_i m v rest hm
      exact ⟨rest, by rw [hm.1, hm.2]⟩
    · exact absurd rfl h
  · exact absurd rfl h

/-- **C136 is false for a locked-out address**: the connection is closed without a word. -/
theorem locked_out_is_not_told (e : Env) (inp : Bytes) (hb : e.blocked = true) : handle e inp = ([], false) := by
  unfold handle
  split
  · split
    · simp [hb]
    · rfl
  · rfl

/-- **C136 is false for options the server does not know** (those of a newer client, say): after any acceptable options the first unknown
one ends the connection without a word. -/
theorem unknown_option_is_not_told (e : Env) (id secret : Bytes) (b : UInt8) (rest : Bytes) (lim : Limits)
    (hid : id.length < 256) (hs : secret.length < 256) (hlim : e.limits id secret lim) (hb : 5 < b.toNat) (hb' : b.toNat < 64)
    (os : List Opt) (hw : ∀ o ∈ os, o = .next) (hmax : os.length < lim.maxOptions) (hm : lim.maxOptions < 65536) :
    handle e ([0xF0, 0x01] ++ (UInt8.ofNat id.length :: id) ++ (UInt8.ofNat secret.length :: secret) ++ (encOpts os ++ b :: rest)) =
      ([], false) := by
  cases hbl : e.blocked with
  | true => exact locked_out_is_not_told e _ hbl
  | false =>
  have key : ∀ (os : List Opt) (st : PState) (n : Nat), (∀ o ∈ os, o = .next) → st.count + os.length < lim.maxOptions → st.left ≠ 0 →
      os.length < n → parseLoop lim id n st (encOpts os ++ b :: rest) = some (.error .invalidOption) := by
    intro os
    induction os with
    | nil =>
      intro st n _ hc hl hn
      obtain ⟨k, rfl⟩ : ∃ k, n = k + 1 := ⟨n - 1, by simp at hn; omega⟩
      have h1 : ¬ ((st.count + 1) % 65536 > lim.maxOptions) := by
        have : (st.count + 1) % 65536 ≤ st.count + 1 := Nat.mod_le _ _
        simp at hc; omega
      have hd : b.toNat / 64 = 0 := by omega
      have hne : ∀ k : UInt8, k.toNat ≤ 5 → b ≠ k := by rintro k hk rfl; omega
      simp only [parseLoop, hl, if_false, encOpts, List.flatMap_nil, List.nil_append, parseStep, h1, readByte, bind, Except.bind, hd,
        readN_zero, List.cons.injEq, and_true, hne 4 (by decide), hne 0 (by decide), hne 1 (by decide), hne 2 (by decide),
        hne 5 (by decide), hne 3 (by decide)]
    | cons o os ih =>
      intro st n ho hc hl hn
      obtain ⟨k, rfl⟩ : ∃ k, n = k + 1 := ⟨n - 1, by simp at hn; omega⟩
      have : o = .next := ho o (by simp)
      subst this
      simp only [List.length_cons] at hc hn
      have h1 : ¬ ((st.count + 1) % 65536 > lim.maxOptions) := by
        have : (st.count + 1) % 65536 ≤ st.count + 1 := Nat.mod_le _ _
        omega
      have h2 : parseStep lim id st (Opt.next.enc ++ (encOpts os ++ b :: rest)) =
          .ok ({ st with count := inc16 st.count, left := st.left + 1 }, encOpts os ++ b :: rest) := by
        rw [parseStep_enc lim id st .next trivial]
        simp only [applyOpt, h1, if_false, Except.map]
      have h3 : encOpts (.next :: os) ++ b :: rest = Opt.next.enc ++ (encOpts os ++ b :: rest) := by simp [encOpts]
      have hinc : inc16 st.count ≤ st.count + 1 := by simp only [inc16]; omega
      rw [h3]
      simp only [parseLoop, hl, if_false, h2]
      exact ih _ k (fun x hx => ho x (List.mem_cons_of_mem _ hx)) (by dsimp only; omega) (by simp) (by omega)
  have hopt : parseOptions lim id (encOpts os ++ b :: rest) = some (.error .invalidOption) := by
    unfold parseOptions
    have hlen : ∀ os : List Opt, (∀ o ∈ os, o = .next) → (encOpts os).length = os.length := by
      intro os
      induction os with
      | nil => intro _; rfl
      | cons o os ih =>
        intro h
        have : o = .next := h o (by simp)
        subst this
        simp only [encOpts, List.flatMap_cons, List.length_append, List.length_cons] at ih ⊢
        rw [ih (fun x hx => h x (List.mem_cons_of_mem _ hx))]
        simp [Opt.enc]; omega
    rw [key os .init _ hw (by simp [PState.init]; exact hmax) (by simp [PState.init]) (by
      simp only [List.length_append, List.length_cons, hlen os hw]; omega)]
  have h0 : handle e ([0xF0, 0x01] ++ (UInt8.ofNat id.length :: id) ++ (UInt8.ofNat secret.length :: secret) ++ (encOpts os ++ b :: rest)) =
      handleTunnel e ((UInt8.ofNat id.length :: id) ++ (UInt8.ofNat secret.length :: secret) ++ (encOpts os ++ b :: rest)) := by
    simp only [handle, List.cons_append, List.nil_append, List.append_assoc]
    rw [hbl]
    simp
  rw [h0]
  unfold handleTunnel
  rw [parseIdSecret_request id secret _ hid hs]
  rcases hlim with ⟨h1, rfl⟩ | ⟨h1, h2⟩
  · simp only [h1, if_true, hopt, optionsMsg]
  · simp only [h1, Bool.false_eq_true, if_false, h2, hopt, optionsMsg]

/-! ## The reasons that `addTunnel` gives -/

open Verif.Registry (Srv Options AddRes addTunnel regAdd portsFail oldTunnels)

/-- Some host asked for belongs to another client. -/
theorem regAdd_conflict (cid : Nat) (ids : AMap String Registry.Opt) : ∀ (reg : AMap (String × Bool) (Nat × Nat)) (rb : List (String × Bool)),
    (regAdd cid ids reg rb).2 = false →
    ∃ p o c i, (p, o) ∈ ids ∧ c ≠ cid ∧ reg.get (p, o.tls) = some (c, i) := by
  induction ids with
  | nil => intro reg rb h; simp [regAdd] at h
  | cons x r ih =>
    obtain ⟨p, o⟩ := x
    intro reg rb h
    simp only [regAdd] at h
    cases hg : reg.get (p, o.tls) with
    | some y =>
      obtain ⟨c, i⟩ := y
      rw [hg] at h
      by_cases hc : c = cid
      · simp only [hc, if_true] at h
        obtain ⟨p', o', c', i', h1, h2, h3⟩ := ih reg rb h
        exact ⟨p', o', c', i', List.mem_cons_of_mem _ h1, h2, h3⟩
      · exact ⟨p, o, c, i, List.mem_cons_self, hc, hg⟩
    | none =>
      rw [hg] at h
      simp only at h
      obtain ⟨p', o', c', i', h1, h2, h3⟩ := ih _ _ h
      refine ⟨p', o', c', i', List.mem_cons_of_mem _ h1, h2, ?_⟩
      rw [AMap.get_set] at h3
      split at h3
      · simp at h3; exact absurd h3.1.symm h2
      · exact h3

/-- libcs/server/client.go:105-180: which of its errors `addTunnel` returns (and which signal it sends). -/
def why (s : Srv) (c t : Nat) (o : Options) (tcpOk : Bool) : Option Err :=
  match s.clis.get c, s.tuns.get t with
  | some cl, some tt =>
    if cl.conns ≤ (cl.tunnels.getD []).length then some .reachedMaxConnections
    else
      match cl.tunnels with
      | none => none
      | some l =>
        if o.cs ∈ cl.black ∧ ¬ (oldTunnels s l o.cs).isEmpty then some .differentConfigClientConnected
        else if cl.last = o.cs then none
        else if (regAdd c o.ids s.reg []).2 = false then some .hostConflict
        else if portsFail cl o tcpOk then some .tcpNumberLimited
        else none
  | _, _ => none

/-- **C136, the reasons of the registry**: `addTunnel` refuses exactly when it gives a reason (a port that could not be opened counts as
`tcpNumberLimited` here), and the reason is so: the client has as many tunnels as it may have; or its configuration was replaced less than a
minute ago and tunnels of another configuration are connected; or another client has one of the hosts; or the ports cannot be had. -/
theorem refusals_have_true_reasons (s : Srv) (c t : Nat) (r : Bool) (o : Options) (tcpOk : Bool) (cl : Registry.Cli) (tt : Registry.Tun)
    (hc : s.clis.get c = some cl) (ht : s.tuns.get t = some tt) :
    ((addTunnel s c t r o tcpOk).1 = .err ↔ why s c t o tcpOk ≠ none) ∧
    (why s c t o tcpOk = some .reachedMaxConnections → cl.conns ≤ (cl.tunnels.getD []).length) ∧
    (why s c t o tcpOk = some .differentConfigClientConnected → o.cs ∈ cl.black ∧
      ∃ l t' tt', cl.tunnels = some l ∧ t' ∈ l ∧ s.tuns.get t' = some tt' ∧ tt'.cs ≠ o.cs) ∧
    (why s c t o tcpOk = some .hostConflict → ∃ p q c' i, (p, q) ∈ o.ids ∧ c' ≠ c ∧ s.reg.get (p, q.tls) = some (c', i)) ∧
    (why s c t o tcpOk = some .tcpNumberLimited → (cl.hasPM = true ∧ tcpOk = false) ∨ (cl.hasPM = false ∧ o.nports ≠ 0)) := by
  have hw : why s c t o tcpOk =
      if cl.conns ≤ (cl.tunnels.getD []).length then some .reachedMaxConnections
      else
        match cl.tunnels with
        | none => none
        | some l =>
          if o.cs ∈ cl.black ∧ ¬ (oldTunnels s l o.cs).isEmpty then some .differentConfigClientConnected
          else if cl.last = o.cs then none
          else if (regAdd c o.ids s.reg []).2 = false then some .hostConflict
          else if portsFail cl o tcpOk then some .tcpNumberLimited
          else none := by
    unfold why; rw [hc, ht]
  rw [hw]
  simp only [addTunnel, hc, ht]
  by_cases h1 : cl.conns ≤ (cl.tunnels.getD []).length
  · rw [if_pos h1, if_pos h1]; exact ⟨by simp, fun _ => h1, by simp, by simp, by simp⟩
  · rw [if_neg h1, if_neg h1]
    cases hl : cl.tunnels with
    | none => simp
    | some l =>
      dsimp only
      by_cases h2 : o.cs ∈ cl.black ∧ ¬ (oldTunnels s l o.cs).isEmpty
      · rw [if_pos h2, if_pos h2]
        refine ⟨by simp, by simp, fun _ => ⟨h2.1, ?_⟩, by simp, by simp⟩
        have h3 : oldTunnels s l o.cs ≠ [] := by
          intro h; exact h2.2 (by rw [h]; rfl)
        obtain ⟨t', h4⟩ := List.exists_mem_of_ne_nil _ h3
        simp only [oldTunnels, List.mem_filter] at h4
        obtain ⟨h5, h6⟩ := h4
        cases hg : s.tuns.get t' with
        | none => rw [hg] at h6; simp at h6
        | some tt' => rw [hg] at h6; exact ⟨l, t', tt', rfl, h5, hg, by simpa using h6⟩
      · rw [if_neg h2, if_neg h2]
        by_cases h3 : cl.last = o.cs
        · rw [if_pos h3, if_pos h3]; simp
        · rw [if_neg h3, if_neg h3]
          have hreg : (Registry.setCli s c { cl with tunnels := some (Registry.insertT l t) }).reg = s.reg := rfl
          rw [hreg]
          cases hra : regAdd c o.ids s.reg [] with
          | mk reg b =>
          cases b with
          | false =>
            refine ⟨by simp, by simp, by simp, fun _ => ?_, by simp⟩
            exact regAdd_conflict c o.ids s.reg [] (by rw [hra])
          | true =>
            dsimp only
            cases hpf : portsFail cl o tcpOk with
            | true =>
              refine ⟨by simp, by simp, by simp, by simp, fun _ => ?_⟩
              unfold portsFail at hpf
              cases hpm : cl.hasPM with
              | true => rw [hpm] at hpf; left; exact ⟨rfl, by simpa using hpf⟩
              | false => rw [hpm] at hpf; right; exact ⟨rfl, by simpa using hpf⟩
            | false => cases r <;> simp

/-! ### Witnesses -/

/-- One user "a" with the secret "s": at most two hosts, which must be one byte long, and no right to ports. -/
def demo : Env :=
  { blocked := false, api := false
    auth := fun id sec => if id = [97] ∧ sec = [115] then some ⟨600, 2, 1, [fun p => p.length == 1], false⟩ else none
    lim := ⟨600, 0, 0, [], false⟩, platform := fun _ _ _ => false
    add := fun _ reg => if reg.ports.isEmpty then .ok [] else .noPorts }

example : WellFormed [97] [115] [.next, .idHost false, .host true [98]] :=
  ⟨by decide, by decide, by simp [Opt.Valid], .next (.svc (by simp) (.svc (by simp) .done))⟩

example : handle demo (request [97] [115] [.next, .idHost false, .host true [98]]) = ([.ready], true) ∧
    handle demo (request [97] [116] [.idHost false]) = ([.err .invalidIDAndSecret], false) ∧
    handle demo (request [97] [115] [.next, .idHost false, .next, .host true [98], .host true [99]]) = ([.err .hostNumberLimited], false) ∧
    handle demo (request [97] [115] [.host true [98, 98]]) = ([.err .hostRegexMismatch], false) ∧
    handle demo (request [97] [115] [.next, .tcp 0 80, .tcp 0 81]) = ([.err .tcpNumberLimited], false) ∧
    handle demo (request [97] [115] [.tcp 0 80]) = ([.err .tcpNumberLimited], false) := by decide +kernel

/-- **C136 is false**: five lost races with a client that is being removed end the connection without a word. -/
theorem lost_races_are_not_told :
    handle { demo with add := fun _ _ => .lost } (request [97] [115] [.idHost false]) = ([], false) := by decide +kernel

/-- A name declared twice counts twice: the client is told that it has too many hosts although it asks for one. -/
example : handle { demo with auth := fun _ _ => some ⟨600, 1, 0, [], false⟩ } (request [97] [115] [.next, .idHost false, .idHost true]) =
    ([.err .hostNumberLimited], false) := by decide +kernel

/-- The hypotheses of `unknown_option_is_not_told` can be met. -/
example : handle demo ([0xF0, 0x01] ++ [1, 97] ++ [1, 115] ++ [2, 6, 0]) = ([], false) :=
  unknown_option_is_not_told demo [97] [115] 6 [0] ⟨600, 2, 1, [fun p => p.length == 1], false⟩ (by decide) (by decide)
    (.inr ⟨rfl, by simp [demo]⟩) (by decide) (by decide) [.next] (by simp) (by decide) (by decide)

end Verif.Server.Answer
