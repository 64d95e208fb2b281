import Verif.Route.TlsSpec
import Verif.Bufio.Lemmas
set_option linter.unusedSimpArgs false
namespace Verif.Route
open Verif Verif.Bufio

theorem at1_lt {buf : Bytes} {i : Nat} {k : UInt8 → Sni} (h : i < buf.length) (P : Sni → Prop)
    (hk : ∀ b, P (k b)) : P (at1 buf i k) := by
  unfold at1
  rw [List.getElem?_eq_getElem h]
  exact hk _

theorem at2_lt {buf : Bytes} {i : Nat} {k : Nat → Sni} (h : i + 2 ≤ buf.length) (P : Sni → Prop)
    (hk : ∀ b, P (k b)) : P (at2 buf i k) :=
  at1_lt (by omega) P fun _ => at1_lt (by omega) P fun _ => hk _

theorem extLoop_safe (buf : Bytes) (f i : Nat) (ext : Int) (hf : buf.length < f + i) (hf0 : 0 < f) : extLoop buf f i ext ≠ .panic := by
  induction f generalizing i ext with
  | zero => omega
  | succ f ih =>
    simp only [extLoop]
    split
    · split
      · simp
      · apply at2_lt (by omega) (P := (· ≠ .panic)); intro ty
        split
        · simp
        · apply at2_lt (by omega) (P := (· ≠ .panic)); intro len
          split
          · exact ih _ _ (by omega) (by omega)
          · split
            · simp
            · apply at1_lt (by omega) (P := (· ≠ .panic)); intro nt
              split
              · simp
              · split
                · simp
                · apply at2_lt (by omega) (P := (· ≠ .panic)); intro nl
                  split <;> simp
    · simp

theorem parseHello_safe (buf : Bytes) : parseHello buf ≠ .panic := by
  simp only [parseHello]
  split
  · simp
  · apply at1_lt (by omega) (P := (· ≠ .panic)); intro rt
    split
    · simp
    · split
      · simp
      · apply at1_lt (by omega) (P := (· ≠ .panic)); intro ht
        split
        · simp
        · split
          · simp
          · apply at1_lt (by omega) (P := (· ≠ .panic)); intro sl
            split
            · simp
            · apply at2_lt (by omega) (P := (· ≠ .panic)); intro cl
              split
              · simp
              · apply at1_lt (by omega) (P := (· ≠ .panic)); intro ml
                split
                · simp
                · apply at2_lt (by omega) (P := (· ≠ .panic)); intro el
                  exact extLoop_safe _ _ _ _ (by omega) (by omega)

theorem at1_append {p r : Bytes} {b : UInt8} {i : Nat} {k : UInt8 → Sni} (h : p.length = i) :
    at1 (p ++ b :: r) i k = k b := by
  unfold at1
  rw [← h]; simp

theorem at2_append {p r : Bytes} {n i : Nat} {k : Nat → Sni} (h : p.length = i) (hn : n < 65536) :
    at2 (p ++ (be16 n ++ r)) i k = k n := by
  have e : p ++ (be16 n ++ r) = (p ++ [UInt8.ofNat (n / 256)]) ++ UInt8.ofNat n :: r := by simp [be16]
  unfold at2
  conv => lhs; arg 1; rw [e]
  rw [at1_append (by simp [h])]
  have e2 : p ++ (be16 n ++ r) = p ++ UInt8.ofNat (n / 256) :: (UInt8.ofNat n :: r) := by simp [be16]
  rw [e2, at1_append h, rd16_be16 hn]

theorem at1_of {buf : Bytes} {i : Nat} {b : UInt8} {k : UInt8 → Sni} (p r : Bytes) (hb : buf = p ++ b :: r)
    (h : p.length = i) : at1 buf i k = k b := by rw [hb]; exact at1_append h

theorem at2_of {buf : Bytes} {i n : Nat} {k : Nat → Sni} (p r : Bytes) (hb : buf = p ++ (be16 n ++ r))
    (h : p.length = i) (hn : n < 65536) : at2 buf i k = k n := by rw [hb]; exact at2_append h hn

theorem extLoop_hello (h : Hello) (f i : Nat) (p : Bytes) (before : List Extn) (buf : Bytes)
    (hb : buf = p ++ ((before.map Extn.bytes).flatten ++ (Extn.bytes ⟨0, h.sniBody⟩ ++ (h.after.map Extn.bytes).flatten)))
    (hi : p.length = i) (hty : ∀ e ∈ before, 0 < e.type ∧ e.type < 65536)
    (hlen : ((before.map Extn.bytes).flatten ++ (Extn.bytes ⟨0, h.sniBody⟩ ++ (h.after.map Extn.bytes).flatten)).length < 65536)
    (hf : before.length < f) :
    extLoop buf f i ((before.map Extn.bytes).flatten ++ (Extn.bytes ⟨0, h.sniBody⟩ ++ (h.after.map Extn.bytes).flatten)).length = .name h.name := by
  induction before generalizing f i p with
  | nil =>
    cases f with
    | zero => omega
    | succ f =>
      simp only [List.map_nil, List.flatten_nil, List.nil_append] at hb hlen ⊢
      have hsl : h.sniBody.length = 5 + h.name.length + h.moreNames.length := by
        simp [Hello.sniBody]; omega
      have hbl : buf.length = i + 4 + h.sniBody.length + (h.after.map Extn.bytes).flatten.length := by
        rw [hb]; simp [Extn.bytes, hi]; omega
      have hl2 : (Extn.bytes ⟨0, h.sniBody⟩ ++ (h.after.map Extn.bytes).flatten).length = 4 + h.sniBody.length + (h.after.map Extn.bytes).flatten.length := by
        simp [Extn.bytes]; omega
      rw [hl2] at hlen ⊢
      simp only [extLoop]
      rw [if_pos (by omega), if_neg (by omega)]
      rw [at2_of p (be16 h.sniBody.length ++ (h.sniBody ++ (h.after.map Extn.bytes).flatten)) (n := 0) (by rw [hb]; simp [Extn.bytes]) hi (by omega)]
      rw [if_neg (by omega)]
      rw [at2_of (p ++ be16 0) (h.sniBody ++ (h.after.map Extn.bytes).flatten) (n := h.sniBody.length) (by rw [hb]; simp [Extn.bytes]) (by simp [hi]) (by omega)]
      rw [if_neg (by simp), if_neg (by omega)]
      have e1 : buf = (p ++ be16 0 ++ be16 h.sniBody.length ++ be16 (3 + h.name.length + h.moreNames.length)) ++ 0 :: (be16 h.name.length ++ (h.name ++ (h.moreNames ++ (h.after.map Extn.bytes).flatten))) := by
        rw [hb]
        simp [Extn.bytes, hsl]
        simp [Hello.sniBody]
      rw [at1_of _ _ e1 (by simp [hi])]
      rw [if_neg (by simp), if_neg (by omega)]
      have e2 : buf = (p ++ be16 0 ++ be16 h.sniBody.length ++ be16 (3 + h.name.length + h.moreNames.length) ++ [0]) ++ (be16 h.name.length ++ (h.name ++ (h.moreNames ++ (h.after.map Extn.bytes).flatten))) := by
        rw [e1]; simp
      rw [at2_of _ _ e2 (by simp [hi]) (by omega)]
      rw [if_neg (by omega)]
      have e3 : buf = (p ++ be16 0 ++ be16 h.sniBody.length ++ be16 (3 + h.name.length + h.moreNames.length) ++ [0] ++ be16 h.name.length) ++ (h.name ++ (h.moreNames ++ (h.after.map Extn.bytes).flatten)) := by
        rw [e2]; simp
      congr 1
      rw [e3]
      generalize hq : p ++ be16 0 ++ be16 h.sniBody.length ++ be16 (3 + h.name.length + h.moreNames.length) ++ [0] ++ be16 h.name.length = q
      have hql : q.length = i + 2 + 2 + 2 + 1 + 2 := by rw [← hq]; simp [hi]
      rw [← hql, ← List.append_assoc, List.take_left' (by simp), List.drop_left' rfl]
  | cons e es ih =>
    cases f with
    | zero => simp at hf
    | succ f =>
      have hl : (((e :: es).map Extn.bytes).flatten ++ (Extn.bytes ⟨0, h.sniBody⟩ ++ (h.after.map Extn.bytes).flatten)).length = 4 + e.body.length + ((es.map Extn.bytes).flatten ++ (Extn.bytes ⟨0, h.sniBody⟩ ++ (h.after.map Extn.bytes).flatten)).length := by
        simp only [List.map_cons, List.flatten_cons, Extn.bytes, List.length_append, be16_length]; omega
      have hbl : buf.length = i + (4 + e.body.length + ((es.map Extn.bytes).flatten ++ (Extn.bytes ⟨0, h.sniBody⟩ ++ (h.after.map Extn.bytes).flatten)).length) := by
        rw [← hl, hb, List.length_append, hi]
      rw [hl] at hlen ⊢
      simp only [extLoop]
      have hte := hty e (by simp)
      rw [if_pos (by omega), if_neg (by omega)]
      rw [at2_of p (be16 e.body.length ++ (e.body ++ ((es.map Extn.bytes).flatten ++ (Extn.bytes ⟨0, h.sniBody⟩ ++ (h.after.map Extn.bytes).flatten)))) (n := e.type) (by rw [hb]; simp [Extn.bytes]) hi hte.2]
      rw [if_neg (by omega)]
      rw [at2_of (p ++ be16 e.type) (e.body ++ ((es.map Extn.bytes).flatten ++ (Extn.bytes ⟨0, h.sniBody⟩ ++ (h.after.map Extn.bytes).flatten))) (n := e.body.length) (by rw [hb]; simp [Extn.bytes]) (by simp [hi]) (by omega)]
      rw [if_pos (by omega)]
      have := ih f (i + 2 + 2 + e.body.length) (p ++ e.bytes) (by rw [hb]; simp) (by simp [Extn.bytes, hi]; omega)
        (fun e he => hty e (by simp [he])) (by omega) (by simp at hf; omega)
      rw [← this]
      congr 1
      omega

theorem flatten_len (l : List Extn) : l.length ≤ (l.map Extn.bytes).flatten.length := by
  induction l with
  | nil => simp
  | cons e es ih => simp only [List.map_cons, List.flatten_cons, List.length_append, List.length_cons, Extn.bytes, be16_length]; omega

theorem parseHello_hello (h : Hello) (hw : h.WF) : parseHello h.bytes = .name h.name := by
  have hlen : h.bytes.length = 1 + 4 + 1 + 37 + (1 + h.sessionID.length) + (2 + h.ciphers.length) + (1 + h.compression.length) + 2 + h.exts.length := by
    simp [Hello.bytes, hw.recVersion, hw.recLen, hw.hsLen, hw.version, hw.random]; omega
  have h1 := hw.sessionID
  have h2 := hw.ciphers
  have h3 := hw.compression
  simp only [parseHello]
  rw [if_neg (by omega)]
  rw [at1_of (i := 0) [] (h.bytes.drop 1) (b := 22) (by simp [Hello.bytes]) rfl]
  rw [if_neg (by simp), if_neg (by omega)]
  rw [at1_of ([22] ++ h.recVersion ++ h.recLen) (h.hsLen ++ h.version ++ h.random ++
      [UInt8.ofNat h.sessionID.length] ++ h.sessionID ++ be16 h.ciphers.length ++ h.ciphers ++
      [UInt8.ofNat h.compression.length] ++ h.compression ++ be16 h.exts.length ++ h.exts) (b := 1)
      (by simp [Hello.bytes]) (by simp [hw.recVersion, hw.recLen])]
  rw [if_neg (by simp), if_neg (by omega)]
  rw [at1_of ([22] ++ h.recVersion ++ h.recLen ++ [1] ++ h.hsLen ++ h.version ++ h.random)
      (h.sessionID ++ be16 h.ciphers.length ++ h.ciphers ++
      [UInt8.ofNat h.compression.length] ++ h.compression ++ be16 h.exts.length ++ h.exts) (b := UInt8.ofNat h.sessionID.length)
      (by simp [Hello.bytes]) (by simp [hw.recVersion, hw.recLen, hw.hsLen, hw.version, hw.random])]
  rw [u8_ofNat_toNat h1, if_neg (by omega)]
  rw [at2_of ([22] ++ h.recVersion ++ h.recLen ++ [1] ++ h.hsLen ++ h.version ++ h.random ++ [UInt8.ofNat h.sessionID.length] ++ h.sessionID)
      (h.ciphers ++ [UInt8.ofNat h.compression.length] ++ h.compression ++ be16 h.exts.length ++ h.exts) (n := h.ciphers.length)
      (by simp [Hello.bytes]) (by simp [hw.recVersion, hw.recLen, hw.hsLen, hw.version, hw.random]; omega) h2]
  rw [if_neg (by omega)]
  rw [at1_of ([22] ++ h.recVersion ++ h.recLen ++ [1] ++ h.hsLen ++ h.version ++ h.random ++ [UInt8.ofNat h.sessionID.length] ++ h.sessionID ++ be16 h.ciphers.length ++ h.ciphers)
      (h.compression ++ be16 h.exts.length ++ h.exts) (b := UInt8.ofNat h.compression.length)
      (by simp [Hello.bytes]) (by simp [hw.recVersion, hw.recLen, hw.hsLen, hw.version, hw.random]; omega)]
  rw [u8_ofNat_toNat h3, if_neg (by omega)]
  rw [at2_of ([22] ++ h.recVersion ++ h.recLen ++ [1] ++ h.hsLen ++ h.version ++ h.random ++ [UInt8.ofNat h.sessionID.length] ++ h.sessionID ++ be16 h.ciphers.length ++ h.ciphers ++ [UInt8.ofNat h.compression.length] ++ h.compression)
      h.exts (n := h.exts.length)
      (by simp [Hello.bytes]) (by simp [hw.recVersion, hw.recLen, hw.hsLen, hw.version, hw.random]; omega) hw.exts]
  apply extLoop_hello h _ _ ([22] ++ h.recVersion ++ h.recLen ++ [1] ++ h.hsLen ++ h.version ++ h.random ++ [UInt8.ofNat h.sessionID.length] ++ h.sessionID ++ be16 h.ciphers.length ++ h.ciphers ++ [UInt8.ofNat h.compression.length] ++ h.compression ++ be16 h.exts.length) h.before
  · simp [Hello.bytes, Hello.exts]
  · simp [hw.recVersion, hw.recLen, hw.hsLen, hw.version, hw.random]; omega
  · exact hw.before
  · exact hw.exts
  · have := flatten_len h.before
    have : (h.before.map Extn.bytes).flatten.length ≤ h.exts.length := by simp [Hello.exts]
    omega

end Verif.Route
