import Verif.Handshake.Inv
set_option linter.unusedSimpArgs false
namespace Verif.Handshake
open Verif

/-- The option `gen` writes for a service. -/
def Service.toOpt (id : Bytes) (s : Service) : Opt :=
  match s.scheme with
  | .tcp => .tcp (if s.tcpRandom then 1 else 0) s.tcpPort
  | .http => if s.hostPrefix = id then .idHost false else .host false s.hostPrefix
  | .https => if s.hostPrefix = id then .idHost true else .host true s.hostPrefix

def clientOpts (id : Bytes) : List Service → List Opt
  | [] => []
  | [s] => [s.toOpt id]
  | s :: s' :: ss => .next :: s.toOpt id :: clientOpts id (s' :: ss)

theorem toOpt_ne_next (id : Bytes) (s : Service) : s.toOpt id ≠ .next := by
  unfold Service.toOpt; split <;> (try split) <;> simp

theorem clientOpts_complete (id : Bytes) (svcs : List Service) (h : svcs ≠ []) :
    Complete 1 (clientOpts id svcs) := by
  fun_induction clientOpts with
  | case1 => exact absurd rfl h
  | case2 s => exact .svc (toOpt_ne_next _ _) .done
  | case3 s s' ss ih => exact .next (.svc (toOpt_ne_next _ _) (ih (by simp)))

theorem clientOpts_services (id : Bytes) (svcs : List Service) :
    optServices (clientOpts id svcs) = svcs.map (Service.toOpt id) := by
  fun_induction clientOpts with
  | case1 => rfl
  | case2 s => simp [optServices, toOpt_ne_next]
  | case3 s s' ss ih =>
    have h1 : optServices (.next :: s.toOpt id :: clientOpts id (s' :: ss)) =
        s.toOpt id :: optServices (clientOpts id (s' :: ss)) := by
      simp [optServices, toOpt_ne_next]
    rw [h1, ih]; rfl

theorem clientOpts_length (id : Bytes) (svcs : List Service) :
    (clientOpts id svcs).length = 2 * svcs.length - 1 := by
  fun_induction clientOpts with
  | case1 => rfl
  | case2 s => rfl
  | case3 s s' ss ih => simp [ih]; omega

theorem toOpt_enc_length (id : Bytes) (s : Service) :
    (s.toOpt id).enc.length = s.wireSize id := by
  unfold Service.toOpt Service.wireSize
  cases s.scheme with
  | tcp => simp [Opt.enc]
  | http => by_cases h : s.hostPrefix = id <;> simp [h, Opt.enc]; omega
  | https => by_cases h : s.hostPrefix = id <;> simp [h, Opt.enc]; omega

theorem clientOpts_enc_length (id : Bytes) (svcs : List Service) :
    (encOpts (clientOpts id svcs)).length =
      (svcs.map (Service.wireSize id)).sum + (svcs.length - 1) := by
  fun_induction clientOpts with
  | case1 => rfl
  | case2 s => simp [encOpts, toOpt_enc_length]
  | case3 s s' ss ih =>
    have h1 : encOpts (.next :: s.toOpt id :: clientOpts id (s' :: ss)) =
        2 :: ((s.toOpt id).enc ++ encOpts (clientOpts id (s' :: ss))) := by
      simp [encOpts, Opt.enc]
    rw [h1]; simp only [List.length_cons, List.length_append, ih, toOpt_enc_length, List.map_cons,
      List.sum_cons]; omega

theorem copyBytes_fit {cap : Nat} {w bs : Bytes} (h : w.length + bs.length ≤ cap) :
    copyBytes cap w bs = w ++ bs := by
  unfold copyBytes
  rw [List.take_of_length_le (by omega)]

theorem putByte_fit {cap : Nat} {w : Bytes} {b : UInt8} (h : w.length < cap) :
    putByte cap w b = some (w ++ [b]) := by simp [putByte, h]

theorem genService_fit {cap : Nat} {id : Bytes} {s : Service} {w : Bytes}
    (h : w.length + s.wireSize id ≤ cap) :
    genService cap id s w = some (w ++ (s.toOpt id).enc) := by
  unfold genService Service.toOpt
  unfold Service.wireSize at h
  cases hs : s.scheme with
  | tcp =>
    simp only [hs] at h ⊢
    rw [copyBytes_fit (by simp; omega)]
    simp only [bind, Option.bind]
    rw [putByte_fit (by simp; omega)]
    simp [putPort, Opt.enc, show w.length + 1 + 1 + 1 < cap by omega]
  | http =>
    simp only [hs] at h ⊢
    split
    · rename_i he
      simp only [he, if_true] at h
      rw [copyBytes_fit (by simp; omega)]; simp [Opt.enc]
    · rename_i he
      simp only [he, if_false] at h
      rw [copyBytes_fit (by simp; omega)]
      simp only [bind, Option.bind]
      rw [putByte_fit (by simp; omega)]
      simp only
      rw [copyBytes_fit (by simp; omega)]
      simp [Opt.enc]
  | https =>
    simp only [hs] at h ⊢
    split
    · rename_i he
      simp only [he, if_true] at h
      rw [copyBytes_fit (by simp; omega)]; simp [Opt.enc]
    · rename_i he
      simp only [he, if_false] at h
      rw [copyBytes_fit (by simp; omega)]
      simp only [bind, Option.bind]
      rw [putByte_fit (by simp; omega)]
      simp only
      rw [copyBytes_fit (by simp; omega)]
      simp [Opt.enc]

theorem genServices_fit {cap : Nat} {id : Bytes} (svcs : List Service) {w : Bytes}
    (h : w.length + (encOpts (clientOpts id svcs)).length ≤ cap) :
    genServices cap id svcs w = some (w ++ encOpts (clientOpts id svcs)) := by
  induction svcs generalizing w with
  | nil => simp [genServices, clientOpts, encOpts]
  | cons s ss ih =>
    cases ss with
    | nil =>
      simp only [clientOpts, encOpts, List.flatMap_cons, List.flatMap_nil, List.append_nil,
        toOpt_enc_length] at h
      simp [genServices, clientOpts, encOpts, genService_fit h]
    | cons s' ss =>
      have h1 : encOpts (clientOpts id (s :: s' :: ss)) =
          2 :: ((s.toOpt id).enc ++ encOpts (clientOpts id (s' :: ss))) := by
        simp [encOpts, Opt.enc, clientOpts]
      rw [h1] at h ⊢
      simp only [List.length_cons, List.length_append, toOpt_enc_length] at h
      simp only [genServices, bind, Option.bind]
      rw [copyBytes_fit (by simp; omega), genService_fit (by simp; omega)]
      simp only
      rw [ih (by simp [toOpt_enc_length]; omega)]
      simp

/-- The wire image of a handshake that fits. -/
def wireImage (id secret : Bytes) (svcs : List Service) : Bytes :=
  UInt8.ofNat id.length :: (id ++ UInt8.ofNat secret.length :: (secret ++ encOpts (clientOpts id svcs)))

theorem clientInit_fit {id secret : Bytes} {svcs : List Service}
    (h : handshakeSize id secret svcs ≤ 4096) :
    clientInit id secret svcs = some (0xF0 :: 0x01 :: wireImage id secret svcs) := by
  unfold handshakeSize at h
  have hl := clientOpts_enc_length id svcs
  unfold clientInit gen
  simp only [bind, Option.bind]
  rw [putByte_fit (by simp)]
  simp only
  rw [copyBytes_fit (by simp; omega), putByte_fit (by simp; omega)]
  simp only
  rw [copyBytes_fit (by simp; omega), genServices_fit _ (by simp; omega)]
  simp [wireImage]

theorem parseIdSecret_wire {id secret rest : Bytes} (h1 : id.length < 256)
    (h2 : secret.length < 256) :
    parseIdSecret (UInt8.ofNat id.length :: (id ++ UInt8.ofNat secret.length :: (secret ++ rest))) =
      .ok ((id, secret), rest) := by
  unfold parseIdSecret
  have e1 := u8_ofNat_toNat h1
  have e2 := u8_ofNat_toNat h2
  simp only [readByte, bind, Except.bind, e1]
  rw [if_neg (by omega), readN_append]
  simp only [e2]
  rw [if_neg (by omega), readN_append]

theorem toOpt_host? (withID : Bool) (id : Bytes) (s : Service) :
    (s.toOpt id).host? withID id = s.host? withID id := by
  unfold Service.toOpt Service.host?
  by_cases h : s.hostPrefix = id <;> cases s.scheme <;> simp [Opt.host?, h]

theorem toOpt_tcp? (id : Bytes) (s : Service) : (s.toOpt id).tcp? = s.tcp? := by
  unfold Service.toOpt Service.tcp?
  cases s.scheme with
  | tcp => cases h : s.tcpRandom <;> simp [Opt.tcp?, h]
  | http => simp; split <;> simp [Opt.tcp?]
  | https => simp; split <;> simp [Opt.tcp?]

theorem toOpt_valid {id : Bytes} {s : Service} (h1 : s.hostPrefix.length < 256)
    (h2 : s.tcpPort < 65536) : (s.toOpt id).Valid := by
  unfold Service.toOpt
  by_cases h : s.hostPrefix = id <;> cases s.scheme <;> simp [Opt.Valid, h, h1, h2]

theorem clientOpts_mem {id : Bytes} {svcs : List Service} {o : Opt} (h : o ∈ clientOpts id svcs) :
    o = .next ∨ ∃ s ∈ svcs, o = s.toOpt id := by
  fun_induction clientOpts with
  | case1 => simp at h
  | case2 s => simp at h; exact .inr ⟨s, by simp, h⟩
  | case3 s s' ss ih =>
    simp only [List.mem_cons] at h
    rcases h with h | h | h
    · exact .inl h
    · exact .inr ⟨s, by simp, h⟩
    · rcases ih (by simpa using h) with h | ⟨x, hx, hx2⟩
      · exact .inl h
      · exact .inr ⟨x, by simp at hx ⊢; exact .inr hx, hx2⟩

theorem clientOpts_countP (id : Bytes) (svcs : List Service) (p : Opt → Bool) (hp : p .next = false) :
    (clientOpts id svcs).countP p = svcs.countP (fun s => p (s.toOpt id)) := by
  fun_induction clientOpts with
  | case1 => rfl
  | case2 s => simp [List.countP_cons]
  | case3 s s' ss ih => simp only [List.countP_cons, hp] at ih ⊢; rw [ih]; simp

theorem host?_inj {withID : Bool} {id : Bytes} {s s' : Service} {p : Bytes} {t t' : Bool}
    (h : s.host? withID id = some (p, t)) (h' : s'.host? withID id = some (p, t')) :
    s.isHost ∧ s'.isHost ∧ s.hostPrefix = s'.hostPrefix := by
  unfold Service.host? at h h'
  unfold Service.isHost
  have key : (if s.hostPrefix = id then id else
      if withID then id ++ ascii "-" ++ s.hostPrefix else s.hostPrefix) =
      (if s'.hostPrefix = id then id else
      if withID then id ++ ascii "-" ++ s'.hostPrefix else s'.hostPrefix) →
      s.hostPrefix = s'.hostPrefix := by
    intro hk
    rw [dash] at hk
    by_cases h1 : s.hostPrefix = id <;> by_cases h2 : s'.hostPrefix = id <;>
      cases withID <;> simp only [h1, h2, if_true, if_false, Bool.false_eq_true] at hk ⊢
    all_goals first
      | exact hk
      | (simpa using hk)
      | (have := congrArg List.length hk; simp at this)
  cases hs : s.scheme <;> cases hs' : s'.scheme <;> simp only [hs, hs', Option.some.injEq,
    Prod.mk.injEq, reduceCtorEq] at h h' <;>
    exact ⟨by simp, by simp, key (h.1.trans h'.1.symm)⟩

theorem genServices_trunc {cap : Nat} {id : Bytes} (svcs : List Service) (last : Service)
    (hlast : last.isHost) (hp : last.hostPrefix ≠ id) {w : Bytes}
    (h : w.length + (encOpts (clientOpts id (svcs ++ [last]))).length ≤ cap + last.hostPrefix.length) :
    genServices cap id (svcs ++ [last]) w =
      some ((w ++ encOpts (clientOpts id (svcs ++ [last]))).take cap) := by
  induction svcs generalizing w with
  | nil =>
    simp only [List.nil_append, clientOpts, encOpts, List.flatMap_cons, List.flatMap_nil,
      List.append_nil] at h ⊢
    unfold Service.isHost at hlast
    unfold Service.toOpt at h ⊢
    cases hs : last.scheme with
    | tcp => simp [hs] at hlast
    | http | https =>
      simp only [hs, hp, if_false, Opt.enc, List.length_cons] at h ⊢
      simp only [genServices, genService, hs, hp, if_false, bind, Option.bind]
      rw [copyBytes_fit (by simp; omega), putByte_fit (by simp; omega)]
      simp only [copyBytes, Option.some.injEq]
      have e : ∀ (a b : UInt8) (l : Bytes), w ++ a :: b :: l = (w ++ [a] ++ [b]) ++ l := by simp
      rw [e, List.take_append, List.take_of_length_le (i := cap) (l := w ++ [_] ++ [_])
        (by simp; omega)]
      simp
  | cons s ss ih =>
    cases hss : ss ++ [last] with
    | nil => simp at hss
    | cons s' ss' =>
      rw [hss] at ih
      have h1 : encOpts (clientOpts id (s :: s' :: ss')) =
          2 :: ((s.toOpt id).enc ++ encOpts (clientOpts id (s' :: ss'))) := by
        simp [encOpts, Opt.enc, clientOpts]
      have hlen : last.hostPrefix.length ≤ (encOpts (clientOpts id (s' :: ss'))).length := by
        rw [← hss, clientOpts_enc_length]
        have : last.hostPrefix.length ≤ last.wireSize id := by
          unfold Service.wireSize; unfold Service.isHost at hlast
          cases hs : last.scheme <;> simp [hs, hp] at hlast ⊢ <;> omega
        simp; omega
      simp only [List.cons_append, hss]  at h ⊢
      rw [h1] at h ⊢
      simp only [List.length_cons, List.length_append, toOpt_enc_length] at h
      simp only [genServices, bind, Option.bind]
      rw [copyBytes_fit (by simp; omega), genService_fit (by simp; omega)]
      simp only
      rw [ih (by simp [toOpt_enc_length]; omega)]
      simp

theorem clientInit_trunc {id secret : Bytes} {svcs : List Service} {last : Service}
    (hlast : last.isHost) (hp : last.hostPrefix ≠ id)
    (h : handshakeSize id secret (svcs ++ [last]) ≤ 4096 + last.hostPrefix.length) :
    clientInit id secret (svcs ++ [last]) =
      some ((0xF0 :: 0x01 :: wireImage id secret (svcs ++ [last])).take 4096) := by
  unfold handshakeSize at h
  have hl := clientOpts_enc_length id (svcs ++ [last])
  have hlen : last.hostPrefix.length ≤ ((svcs ++ [last]).map (Service.wireSize id)).sum := by
    have : last.hostPrefix.length ≤ last.wireSize id := by
      unfold Service.wireSize; unfold Service.isHost at hlast
      cases hs : last.scheme <;> simp [hs, hp] at hlast ⊢ <;> omega
    simp; omega
  unfold clientInit gen
  simp only [bind, Option.bind]
  rw [putByte_fit (by simp)]
  simp only
  rw [copyBytes_fit (by simp; omega), putByte_fit (by simp; omega)]
  simp only
  rw [copyBytes_fit (by simp; omega), genServices_trunc _ _ hlast hp (by rw [hl]; simp at h ⊢; omega)]
  simp [wireImage]

end Verif.Handshake
