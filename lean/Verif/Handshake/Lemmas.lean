import Verif.Handshake.Spec
set_option linter.unusedSimpArgs false
namespace Verif.Handshake
open Verif

theorem dash : ascii "-" = [0x2D] := by rfl

/-- What one option does to the loop state. -/
def applyOpt (lim : Limits) (id : Bytes) (st : PState) (o : Opt) : Except PErr PState :=
  if (st.count + 1) % 65536 > lim.maxOptions then .error .reachedMaxOptions
  else
    let st := { st with count := inc16 st.count }
    match o with
    | .next => .ok { st with left := st.left + 1 }
    | .idHost tls =>
      if lim.hostNumber ≠ 0 ∧ (st.ids.length + 1) % 4294967296 > lim.hostNumber then
        .error .hostNumberLimited
      else .ok { st with ids := st.ids.set id ⟨st.si, tls⟩, si := inc16 st.si, left := st.left - 1 }
    | .tcp random port =>
      if lim.tcpNumber ≠ 0 ∧ (st.ports.length + 1) % 65536 > lim.tcpNumber then
        .error .tcpNumberLimited
      else .ok { st with ports := st.ports.set st.si ⟨port, random != 0⟩, si := inc16 st.si,
                         left := st.left - 1 }
    | .host tls pfx =>
      if lim.hostNumber ≠ 0 ∧ (st.ids.length + 1) % 4294967296 > lim.hostNumber then
        .error .hostNumberLimited
      else if lim.regex.length > 0 ∧ ¬ (lim.regex.any (fun r => r pfx)) then
        .error .hostRegexMismatch
      else .ok { st with ids := st.ids.set (if lim.withID then id ++ [0x2D] ++ pfx else pfx) ⟨st.si, tls⟩,
                         si := inc16 st.si, left := st.left - 1 }

theorem readN_append (a b : Bytes) : readN a.length (a ++ b) = .ok (a, b) := by
  simp [readN]

theorem readN_two (a b : UInt8) (r : Bytes) : readN 2 (a :: b :: r) = .ok ([a, b], r) := by
  simp [readN]

private theorem ne54 : (((5:UInt8)) = 4) = False := by decide
private theorem ne50 : (((5:UInt8)) = 0) = False := by decide
private theorem ne51 : (((5:UInt8)) = 1) = False := by decide
private theorem ne52 : (((5:UInt8)) = 2) = False := by decide
private theorem ne34 : (((3:UInt8)) = 4) = False := by decide
private theorem ne30 : (((3:UInt8)) = 0) = False := by decide
private theorem ne31 : (((3:UInt8)) = 1) = False := by decide
private theorem ne32 : (((3:UInt8)) = 2) = False := by decide
private theorem ne35 : (((3:UInt8)) = 5) = False := by decide

theorem readN_zero (r : Bytes) : readN 0 r = .ok ([], r) := by simp [readN]

theorem parseStep_enc (lim : Limits) (id : Bytes) (st : PState) (o : Opt) (hv : o.Valid)
    (inp : Bytes) :
    parseStep lim id st (o.enc ++ inp) = (applyOpt lim id st o).map (fun st => (st, inp)) := by
  unfold parseStep applyOpt
  by_cases hc : (st.count + 1) % 65536 > lim.maxOptions
  · simp [hc, Except.map]
  · simp only [hc, if_false]
    cases o with
    | next =>
      simp [Opt.enc, readByte, readN_zero, bind, Except.bind, Except.map]
    | idHost tls =>
      cases tls <;>
      · simp [Opt.enc, readByte, readN_zero, bind, Except.bind, Except.map, optIdHost]
        by_cases h : (¬lim.hostNumber = 0 ∧ lim.hostNumber < (st.ids.length + 1) % 4294967296) <;> simp [h]
    | tcp random port =>
      simp only [Opt.Valid] at hv
      have h1 := rd16_be16 hv
      simp [Opt.enc, readByte, readN_zero, bind, Except.bind, Except.map, optTcp, be16, readN_two, h1]
      by_cases h : (¬lim.tcpNumber = 0 ∧ lim.tcpNumber < (st.ports.length + 1) % 65536) <;> simp [h]
    | host tls pfx =>
      simp only [Opt.Valid] at hv
      have h1 : (UInt8.ofNat pfx.length).toNat = pfx.length := u8_ofNat_toNat hv
      cases tls <;>
      · simp only [Opt.enc, List.cons_append, readByte, bind, Except.bind]
        simp only [Bool.false_eq_true, if_false, if_true, UInt8.reduceToNat, Nat.reduceDiv, readN_zero, optHost, readByte,
          bind, Except.bind, h1, readN_append, List.cons.injEq, and_true, ne54, ne50, ne51, ne52, ne34, ne30, ne31, ne32, ne35]
        by_cases h2 : lim.hostNumber ≠ 0 ∧ (List.length st.ids + 1) % 4294967296 > lim.hostNumber
        · simp [h2, Except.map]
        · simp only [h2, if_false]
          by_cases h3 : lim.regex.length > 0 ∧ ¬ (lim.regex.any (fun r => r pfx))
          · simp [h3, Except.map]
          · simp only [h3, if_false, Except.map]


theorem be16_rd16 (a b : UInt8) : be16 (rd16 a b) = [a, b] := by
  have ha := u8_lt a
  have hb := u8_lt b
  simp only [be16, rd16, List.cons.injEq, and_true]
  constructor <;> apply u8_eq_of_toNat <;> simp <;> omega

theorem readN_ok {n : Nat} {inp a r : Bytes} (h : readN n inp = .ok (a, r)) :
    inp = a ++ r ∧ a.length = n := by
  unfold readN at h
  split at h
  · simp only [Except.ok.injEq, Prod.mk.injEq] at h
    obtain ⟨rfl, rfl⟩ := h
    constructor
    · simp
    · simp; omega
  · simp at h

theorem optTcp_ok {lim : Limits} {st : PState} {inp : Bytes} {res : PState × Bytes}
    (h : optTcp lim st inp = .ok res) : ∃ r a b X, inp = r :: a :: b :: X := by
  unfold optTcp at h
  split at h
  · simp at h
  cases inp with
  | nil => simp [readByte, bind, Except.bind] at h
  | cons r inp1 =>
    simp only [readByte, bind, Except.bind] at h
    cases hp : readN 2 inp1 with
    | error e => rw [hp] at h; simp at h
    | ok pr =>
      obtain ⟨pp, inp2⟩ := pr
      obtain ⟨rfl, hl⟩ := readN_ok hp
      match pp, hl with
      | [a, b], _ => exact ⟨r, a, b, inp2, rfl⟩

theorem optHost_ok {lim : Limits} {id : Bytes} {tls : Bool} {st : PState} {inp : Bytes}
    {res : PState × Bytes} (h : optHost lim id tls st inp = .ok res) :
    ∃ l pfx X, inp = l :: (pfx ++ X) ∧ pfx.length = l.toNat := by
  unfold optHost at h
  split at h
  · simp at h
  cases inp with
  | nil => simp [readByte, bind, Except.bind] at h
  | cons l inp1 =>
    simp only [readByte, bind, Except.bind] at h
    cases hp : readN l.toNat inp1 with
    | error e => rw [hp] at h; simp at h
    | ok pr =>
      obtain ⟨pp, inp2⟩ := pr
      obtain ⟨rfl, hl⟩ := readN_ok hp
      exact ⟨l, pp, inp2, rfl, hl⟩

theorem parseStep_split {lim : Limits} {id : Bytes} {st : PState} {inp : Bytes}
    {res : PState × Bytes} (h : parseStep lim id st inp = .ok res) :
    ∃ o X, Opt.Valid o ∧ inp = o.enc ++ X := by
  unfold parseStep at h
  split at h
  · simp at h
  cases inp with
  | nil => simp [readByte, bind, Except.bind] at h
  | cons first inp =>
    simp only [readByte, bind, Except.bind] at h
    cases hm : readN (first.toNat / 64) inp with
    | error e => rw [hm] at h; simp at h
    | ok m =>
      obtain ⟨more, inp1⟩ := m
      obtain ⟨rfl, hlen⟩ := readN_ok hm
      rw [hm] at h
      simp only at h
      split at h
      · rename_i ho
        simp only [List.cons.injEq] at ho
        obtain ⟨rfl, rfl⟩ := ho
        exact ⟨.idHost true, inp1, trivial, by simp [Opt.enc]⟩
      split at h
      · rename_i ho
        simp only [List.cons.injEq] at ho
        obtain ⟨rfl, rfl⟩ := ho
        exact ⟨.idHost false, inp1, trivial, by simp [Opt.enc]⟩
      split at h
      · rename_i ho
        simp only [List.cons.injEq] at ho
        obtain ⟨rfl, rfl⟩ := ho
        split at h
        · simp at h
        rename_i hp
        obtain ⟨r, a, b, X, rfl⟩ := optTcp_ok hp
        exact ⟨.tcp r (rd16 a b), X, rd16_lt a b, by simp [Opt.enc, be16_rd16]⟩
      split at h
      · rename_i ho
        simp only [List.cons.injEq] at ho
        obtain ⟨rfl, rfl⟩ := ho
        exact ⟨.next, inp1, trivial, by simp [Opt.enc]⟩
      split at h
      · rename_i ho
        simp only [List.cons.injEq] at ho
        obtain ⟨rfl, rfl⟩ := ho
        split at h
        · simp at h
        rename_i hp
        obtain ⟨l, pp, X, rfl, hl⟩ := optHost_ok hp
        exact ⟨.host true pp, X, by simp [Opt.Valid, hl, u8_lt], by simp [Opt.enc, hl]⟩
      split at h
      · rename_i ho
        simp only [List.cons.injEq] at ho
        obtain ⟨rfl, rfl⟩ := ho
        split at h
        · simp at h
        rename_i hp
        obtain ⟨l, pp, X, rfl, hl⟩ := optHost_ok hp
        exact ⟨.host false pp, X, by simp [Opt.Valid, hl, u8_lt], by simp [Opt.enc, hl]⟩
      · simp at h

theorem parseStep_ok {lim : Limits} {id : Bytes} {st st' : PState} {inp inp' : Bytes}
    (h : parseStep lim id st inp = .ok (st', inp')) :
    ∃ o, Opt.Valid o ∧ inp = o.enc ++ inp' ∧ applyOpt lim id st o = .ok st' := by
  obtain ⟨o, X, hv, rfl⟩ := parseStep_split h
  rw [parseStep_enc lim id st o hv] at h
  cases ha : applyOpt lim id st o with
  | error e => rw [ha] at h; simp [Except.map] at h
  | ok s =>
    rw [ha] at h
    simp only [Except.map, Except.ok.injEq, Prod.mk.injEq] at h
    obtain ⟨rfl, rfl⟩ := h
    exact ⟨o, hv, rfl, ha⟩

theorem enc_length_pos (o : Opt) : 0 < o.enc.length := by cases o <;> simp [Opt.enc]

theorem parseStep_shrinks {lim : Limits} {id : Bytes} {st st' : PState} {inp inp' : Bytes}
    (h : parseStep lim id st inp = .ok (st', inp')) : inp'.length < inp.length := by
  obtain ⟨o, _, rfl, _⟩ := parseStep_ok h
  have := enc_length_pos o
  simp; omega

/-- Termination: fuel `inp.length + 1` is always enough. -/
theorem parseLoop_fuel (lim : Limits) (id : Bytes) (fuel : Nat) (st : PState) (inp : Bytes)
    (h : inp.length < fuel) : parseLoop lim id fuel st inp ≠ none := by
  induction fuel generalizing st inp with
  | zero => omega
  | succ n ih =>
    simp only [parseLoop]
    split
    · simp
    · split
      · simp
      · rename_i hs
        exact ih _ _ (by have := parseStep_shrinks hs; omega)

/-- `applyOpt` iterated. -/
def applyOpts (lim : Limits) (id : Bytes) : PState → List Opt → Except PErr PState
  | st, [] => .ok st
  | st, o :: os => match applyOpt lim id st o with
    | .error e => .error e
    | .ok st => applyOpts lim id st os

theorem applyOpt_left {lim : Limits} {id : Bytes} {st st' : PState} {o : Opt}
    (h : applyOpt lim id st o = .ok st') :
    st'.left = if o = .next then st.left + 1 else st.left - 1 := by
  unfold applyOpt at h
  split at h
  · simp at h
  · cases o with
    | next => simp at h; subst h; simp
    | idHost tls => simp only at h; split at h <;> simp at h; subst h; simp
    | tcp r p => simp only at h; split at h <;> simp at h; subst h; simp
    | host tls p =>
      simp only at h
      split at h
      · simp at h
      split at h
      · simp at h
      simp at h; subst h; simp

/-- A successful loop run consumed a complete option list. -/
theorem parseLoop_sound {lim : Limits} {id : Bytes} {fuel : Nat} {st st' : PState}
    {inp rest : Bytes} (h : parseLoop lim id fuel st inp = some (.ok (st', rest))) :
    ∃ os, (∀ o ∈ os, Opt.Valid o) ∧ Complete st.left os ∧ inp = encOpts os ++ rest ∧
      applyOpts lim id st os = .ok st' := by
  induction fuel generalizing st inp with
  | zero => simp [parseLoop] at h
  | succ n ih =>
    simp only [parseLoop] at h
    split at h
    · rename_i h0
      simp at h
      obtain ⟨rfl, rfl⟩ := h
      exact ⟨[], by simp, h0 ▸ .done, rfl, rfl⟩
    · rename_i h0
      split at h
      · simp at h
      · rename_i st1 inp1 hs
        obtain ⟨os, hv, hc, rfl, ha⟩ := ih h
        obtain ⟨o, hov, rfl, hoa⟩ := parseStep_ok hs
        have hl := applyOpt_left hoa
        refine ⟨o :: os, ?_, ?_, by simp [encOpts], by simp [applyOpts, hoa, ha]⟩
        · intro x hx
          rcases List.mem_cons.mp hx with rfl | hx
          · exact hov
          · exact hv x hx
        · obtain ⟨k, hk⟩ : ∃ k, st.left = k + 1 := ⟨st.left - 1, by omega⟩
          rw [hk] at hl ⊢
          by_cases hn : o = .next
          · subst hn
            simp at hl
            rw [hl] at hc
            exact .next hc
          · simp [hn] at hl
            rw [hl] at hc
            exact .svc hn hc

/-- Conversely a complete option list that the limits allow is parsed. -/
theorem parseLoop_complete {lim : Limits} {id : Bytes} {st st' : PState}
    {rest : Bytes} (os : List Opt) (hv : ∀ o ∈ os, Opt.Valid o) (hc : Complete st.left os)
    (ha : applyOpts lim id st os = .ok st') (fuel : Nat) (hf : (encOpts os).length < fuel) :
    parseLoop lim id fuel st (encOpts os ++ rest) = some (.ok (st', rest)) := by
  induction os generalizing st fuel with
  | nil =>
    obtain ⟨n, rfl⟩ : ∃ n, fuel = n + 1 := ⟨fuel - 1, by omega⟩
    simp only [applyOpts, Except.ok.injEq] at ha
    subst ha
    have : st.left = 0 := by cases h : st.left with
      | zero => rfl
      | succ n => rw [h] at hc; cases hc
    simp [parseLoop, this, encOpts]
  | cons o os ih =>
    obtain ⟨n, rfl⟩ : ∃ n, fuel = n + 1 := ⟨fuel - 1, by omega⟩
    have hl0 : st.left ≠ 0 := by intro h; rw [h] at hc; cases hc
    simp only [applyOpts] at ha
    cases hoa : applyOpt lim id st o with
    | error e => rw [hoa] at ha; simp at ha
    | ok st1 =>
      rw [hoa] at ha
      simp only at ha
      have hl := applyOpt_left hoa
      have hlen := enc_length_pos o
      simp only [encOpts, List.flatMap_cons, List.length_append] at hf
      simp only [parseLoop, hl0, if_false, encOpts, List.flatMap_cons, List.append_assoc,
        parseStep_enc lim id st o (hv o (by simp)), hoa, Except.map]
      refine ih (fun x hx => hv x (by simp [hx])) ?_ ha n (by simp only [encOpts]; omega)
      generalize st.left = k at hc hl
      cases hc with
      | next h => simp at hl; rw [hl]; exact h
      | svc hn h => simp [hn] at hl; rw [hl]; exact h

end Verif.Handshake
