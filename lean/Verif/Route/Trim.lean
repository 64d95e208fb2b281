import Verif.Route.Props
set_option linter.unusedSimpArgs false
set_option linter.unusedVariables false
/-!
# `bytes.TrimSpace`, and the route of a whole request (C05, C06)

The theorems of `Props` hold for every trimming function. Here is the one the program uses (libcs/server/http.go:58), and with it
the end-to-end statement: a request with an ordinary `Host` line is routed to the label before the first dot.
-/
namespace Verif.Route
open Verif Verif.Bufio

/-- The UTF-8 encodings of the characters for which `unicode.IsSpace` holds: `\t \n \v \f \r`, space, U+0085, U+00A0,
U+1680, U+2000 to U+200A, U+2028, U+2029, U+202F, U+205F, U+3000. -/
def wsEncs : List Bytes :=
  [[9], [10], [11], [12], [13], [32], [0xC2, 0x85], [0xC2, 0xA0], [0xE1, 0x9A, 0x80],
   [0xE2, 0x80, 0x80], [0xE2, 0x80, 0x81], [0xE2, 0x80, 0x82], [0xE2, 0x80, 0x83], [0xE2, 0x80, 0x84], [0xE2, 0x80, 0x85],
   [0xE2, 0x80, 0x86], [0xE2, 0x80, 0x87], [0xE2, 0x80, 0x88], [0xE2, 0x80, 0x89], [0xE2, 0x80, 0x8A],
   [0xE2, 0x80, 0xA8], [0xE2, 0x80, 0xA9], [0xE2, 0x80, 0xAF], [0xE2, 0x81, 0x9F], [0xE3, 0x80, 0x80]]

/-- Drops leading members of `encs` as long as there are any (`bytes.TrimLeftFunc`). Every turn shortens, so the length is
enough fuel. -/
def strip (encs : List Bytes) : Nat → Bytes → Bytes
  | 0, b => b
  | f + 1, b =>
    match encs.find? (fun e => e.isPrefixOf b) with
    | some e => strip encs f (b.drop e.length)
    | none => b

/-- libcs/server/http.go:58 `bytes.TrimSpace`: white space characters are dropped from the front, then from the back. (The library
takes a short cut for ASCII; a character at the end is recognised by the bytes of its encoding, since the encodings begin with a
byte that is no continuation byte.) -/
def trimSpace (b : Bytes) : Bytes :=
  let l := strip wsEncs b.length b
  (strip (wsEncs.map List.reverse) l.length l.reverse).reverse

/-! ## Specification -/

/-- A run of white space. -/
def WS (l : Bytes) : Prop := ∃ es : List Bytes, (∀ e ∈ es, e ∈ wsEncs) ∧ l = es.flatten

/-- Does not begin or end with a white space character. -/
def Tight (v : Bytes) : Prop := ∀ e ∈ wsEncs, ¬ e <+: v ∧ ¬ e <:+ v

/-! ## Proofs -/

/-- No member begins another, and none is empty. -/
def PF (encs : List Bytes) : Prop := (∀ e ∈ encs, ∀ e' ∈ encs, e <+: e' → e = e') ∧ ∀ e ∈ encs, e ≠ []

theorem pf_ws : PF wsEncs := by
  constructor
  · decide +kernel
  · decide +kernel

theorem pf_ws_rev : PF (wsEncs.map List.reverse) := by
  constructor
  · decide +kernel
  · decide +kernel

theorem prefix_cases {a b c : Bytes} (h1 : a <+: c) (h2 : b <+: c) : a <+: b ∨ b <+: a :=
  List.prefix_or_prefix_of_prefix h1 h2

theorem strip_run {encs : List Bytes} (hp : PF encs) : ∀ (es : List Bytes) (t : Bytes) (f : Nat), (∀ e ∈ es, e ∈ encs) →
    (∀ e ∈ encs, ¬ e <+: t) → es.length ≤ f → strip encs f (es.flatten ++ t) = t := by
  intro es
  induction es with
  | nil =>
    intro t f _ ht _
    cases f with
    | zero => rfl
    | succ f =>
      simp only [strip, List.flatten_nil, List.nil_append]
      have : encs.find? (fun e => e.isPrefixOf t) = none := by
        rw [List.find?_eq_none]
        intro e he hx
        exact ht e he (List.isPrefixOf_iff_prefix.1 hx)
      rw [this]
  | cons e es ih =>
    intro t f hes ht hf
    cases f with
    | zero => simp at hf
    | succ f =>
      have hmem : e ∈ encs := hes e (by simp)
      simp only [strip]
      cases hq : encs.find? (fun e' => e'.isPrefixOf ((e :: es).flatten ++ t)) with
      | none =>
        rw [List.find?_eq_none] at hq
        exact absurd (List.isPrefixOf_iff_prefix.2 ⟨es.flatten ++ t, by simp⟩) (hq e hmem)
      | some e' =>
        have h1 := List.mem_of_find?_eq_some hq
        have h2 := List.isPrefixOf_iff_prefix.1 (List.find?_some (p := fun e' : Bytes => e'.isPrefixOf ((e :: es).flatten ++ t)) hq)
        have h3 : e <+: (e :: es).flatten ++ t := ⟨es.flatten ++ t, by simp⟩
        have : e' = e := by
          rcases prefix_cases h2 h3 with h | h
          · exact hp.1 _ h1 _ hmem h
          · exact (hp.1 _ hmem _ h1 h).symm
        subst this
        simp only [List.flatten_cons, List.append_assoc, List.drop_left]
        simp only [List.length_cons] at hf
        exact ih t f (fun x hx => hes x (by simp [hx])) ht (by omega)

/-- What `strip` takes off is a run of members, and none is left. -/
theorem strip_spec {encs : List Bytes} (hp : PF encs) : ∀ (f : Nat) (b : Bytes), b.length ≤ f →
    ∃ es : List Bytes, (∀ e ∈ es, e ∈ encs) ∧ b = es.flatten ++ strip encs f b ∧ ∀ e ∈ encs, ¬ e <+: strip encs f b := by
  intro f
  induction f with
  | zero =>
    intro b hb
    have : b = [] := List.length_eq_zero_iff.1 (by omega)
    subst this
    refine ⟨[], by simp, rfl, ?_⟩
    intro e he hx
    exact hp.2 e he (List.prefix_nil.1 hx)
  | succ f ih =>
    intro b hb
    simp only [strip]
    cases hq : encs.find? (fun e' => e'.isPrefixOf b) with
    | none =>
      rw [List.find?_eq_none] at hq
      refine ⟨[], by simp, rfl, ?_⟩
      intro e he hx
      exact hq e he (List.isPrefixOf_iff_prefix.2 hx)
    | some e =>
      have h1 := List.mem_of_find?_eq_some hq
      obtain ⟨t, rfl⟩ := List.isPrefixOf_iff_prefix.1 (List.find?_some (p := fun e' : Bytes => e'.isPrefixOf b) hq)
      have hpos := List.length_pos_iff.2 (hp.2 e h1)
      simp only [List.drop_left]
      simp only [List.length_append] at hb
      obtain ⟨es, k1, k2, k3⟩ := ih t (by omega)
      refine ⟨e :: es, ?_, ?_, k3⟩
      · intro x hx
        rcases List.mem_cons.1 hx with rfl | hx
        · exact h1
        · exact k1 x hx
      · simp only [List.flatten_cons, List.append_assoc]; rw [← k2]

/-- A byte that begins a white space character is never a later byte of one. -/
theorem start_not_inner : ∀ e ∈ wsEncs, ∀ e' ∈ wsEncs, ∀ b ∈ e'.drop 1, e.head? ≠ some b := by decide +kernel

/-- White space that is cut off behind cannot complete a character in front. -/
theorem no_straddle {v r : Bytes} (hv : v ≠ []) (hr : WS r) (h : ∀ e ∈ wsEncs, ¬ e <+: v) : ∀ e ∈ wsEncs, ¬ e <+: v ++ r := by
  intro e he hx
  rcases prefix_cases hx (List.prefix_append v r) with hx' | ⟨w, hw⟩
  · exact h e he hx'
  · obtain ⟨es, k1, rfl⟩ := hr
    cases w with
    | nil => rw [List.append_nil] at hw; exact h e he (hw ▸ List.prefix_refl _)
    | cons b w =>
      subst hw
      have hx2 : b :: w <+: es.flatten := by
        rw [List.prefix_append_right_inj] at hx; exact hx
      have hb : b ∈ (v ++ b :: w).drop 1 := by
        cases v with
        | nil => exact absurd rfl hv
        | cons a v => simp
      cases es with
      | nil => simp at hx2
      | cons e1 es =>
        have h1 := k1 e1 (by simp)
        apply start_not_inner e1 h1 _ he b hb
        have hne := pf_ws.2 e1 h1
        cases e1 with
        | nil => exact absurd rfl hne
        | cons c cs =>
          simp only [List.flatten_cons, List.cons_append, List.cons_prefix_cons] at hx2
          rw [hx2.1]; rfl

theorem ws_reverse {r : Bytes} (h : WS r) : ∃ es : List Bytes, (∀ e ∈ es, e ∈ wsEncs.map List.reverse) ∧ r.reverse = es.flatten := by
  obtain ⟨es, h1, rfl⟩ := h
  refine ⟨(es.map List.reverse).reverse, ?_, ?_⟩
  · intro e he
    simp only [List.mem_reverse, List.mem_map] at he ⊢
    obtain ⟨a, ha, rfl⟩ := he
    exact ⟨a, h1 a ha, rfl⟩
  · rw [List.reverse_flatten]

theorem runs_len {encs : List Bytes} (hp : PF encs) (es : List Bytes) (h : ∀ e ∈ es, e ∈ encs) : es.length ≤ es.flatten.length := by
  induction es with
  | nil => simp
  | cons e es ih =>
    have := List.length_pos_iff.2 (hp.2 e (h e (by simp)))
    have := ih (fun x hx => h x (by simp [hx]))
    simp only [List.flatten_cons, List.length_append, List.length_cons]
    omega

/-- **Trimming takes off exactly the white space around the text.** -/
theorem trimSpace_eq (l v r : Bytes) (hl : WS l) (hr : WS r) (hv : v ≠ []) (ht : Tight v) : trimSpace (l ++ v ++ r) = v := by
  obtain ⟨es, h1, rfl⟩ := hl
  have a : strip wsEncs (es.flatten ++ v ++ r).length (es.flatten ++ v ++ r) = v ++ r := by
    rw [List.append_assoc]
    apply strip_run pf_ws es _ _ h1
    · exact no_straddle hv hr (fun e he => (ht e he).1)
    · have := runs_len pf_ws es h1
      simp only [List.length_append]; omega
  simp only [trimSpace, a]
  obtain ⟨rs, g1, g2⟩ := ws_reverse hr
  rw [List.reverse_append, g2, strip_run pf_ws_rev rs _ _ g1]
  · simp
  · intro e he hx
    simp only [List.mem_map] at he
    obtain ⟨a, ha, rfl⟩ := he
    exact (ht a ha).2 (List.reverse_prefix.1 hx)
  · have := runs_len pf_ws_rev rs g1
    rw [← g2] at this
    simp only [List.length_append, List.length_reverse] at this ⊢
    omega

/-- **Every value is its trimmed text with white space around it.** -/
theorem trimSpace_spec (x : Bytes) : ∃ l r, WS l ∧ WS r ∧ x = l ++ trimSpace x ++ r ∧ Tight (trimSpace x) := by
  obtain ⟨es, h1, h2, h3⟩ := strip_spec pf_ws x.length x (Nat.le_refl _)
  simp only [trimSpace]
  generalize hL : strip wsEncs x.length x = L at h2 h3 ⊢
  obtain ⟨rs, g1, g2, g3⟩ := strip_spec pf_ws_rev L.length L.reverse (by simp)
  generalize strip (wsEncs.map List.reverse) L.length L.reverse = w at g2 g3 ⊢
  have hLw : L = w.reverse ++ rs.flatten.reverse := by
    have := congrArg List.reverse g2
    rw [List.reverse_reverse, List.reverse_append] at this
    exact this
  refine ⟨es.flatten, rs.flatten.reverse, ⟨es, h1, rfl⟩, ⟨(rs.map List.reverse).reverse, ?_, ?_⟩, ?_, ?_⟩
  · intro e he
    simp only [List.mem_reverse, List.mem_map] at he
    obtain ⟨a, ha, rfl⟩ := he
    have := g1 a ha
    simp only [List.mem_map] at this
    obtain ⟨b, hb, rfl⟩ := this
    rw [List.reverse_reverse]; exact hb
  · rw [List.reverse_flatten]
  · rw [List.append_assoc, ← hLw]; exact h2
  · intro e he
    constructor
    · intro hx
      apply h3 e he
      rw [hLw]
      exact hx.trans (List.prefix_append _ _)
    · intro hx
      apply g3 e.reverse (List.mem_map.2 ⟨e, he, rfl⟩)
      rw [← List.reverse_suffix, List.reverse_reverse]
      exact hx

/-- Text that begins and ends with a printable ASCII character is not shortened. -/
theorem tight_of_ends {v : Bytes} {a b : UInt8} (ha : v.head? = some a) (hb : v.getLast? = some b)
    (ha' : 33 ≤ a ∧ a < 128) (hb' : 33 ≤ b ∧ b < 128) : Tight v := by
  have hd : ∀ e ∈ wsEncs, ∀ c : UInt8, (e.head? = some c ∨ e.getLast? = some c) → c ≤ 32 ∨ 128 ≤ c := by
    intro e he c hc
    have : ∀ e ∈ wsEncs, (∀ c ∈ e.head?, c ≤ 32 ∨ 128 ≤ c) ∧ (∀ c ∈ e.getLast?, c ≤ 32 ∨ 128 ≤ c) := by decide +kernel
    rcases hc with h | h
    · exact (this e he).1 c h
    · exact (this e he).2 c h
  have hno : ∀ c : UInt8, 33 ≤ c ∧ c < 128 → ¬ (c ≤ 32 ∨ 128 ≤ c) := by
    intro c hc h
    simp only [UInt8.le_iff_toNat_le, UInt8.lt_iff_toNat_lt] at hc h
    have : (33 : UInt8).toNat = 33 := rfl
    have : (128 : UInt8).toNat = 128 := rfl
    have : (32 : UInt8).toNat = 32 := rfl
    omega
  intro e he
  constructor
  · rintro ⟨t, rfl⟩
    cases e with
    | nil => exact pf_ws.2 _ he rfl
    | cons c cs =>
      simp only [List.cons_append, List.head?_cons, Option.some.injEq] at ha
      subst ha
      exact hno _ ha' (hd _ he _ (Or.inl rfl))
  · rintro ⟨t, rfl⟩
    have hne := pf_ws.2 _ he
    have : e.getLast? = some b := by
      rw [List.getLast?_append] at hb
      cases hx : e.getLast? with
      | none => rw [List.getLast?_eq_none_iff] at hx; exact absurd hx hne
      | some c => rw [hx] at hb; simpa using hb
    exact hno _ hb' (hd _ he _ (Or.inr this))

/-! ## The route of a whole request -/

/-- **C05, C06, end to end**: on a server that routes by `Host`, a connection that neither fails nor ends and whose first `Host: `
line, within 2049 bytes, is `id.mid.rest` up to white space around it, is routed to `id` - whatever the segmentation - and nothing
of the request is consumed. -/
theorem host_request_routed (s : Rd) (hcap : 2049 ≤ s.cap) (hfit : s.r + s.data.length ≤ s.cap) (hcl : Clean s.src)
    (he : s.err = none) (l id mid rest r : Bytes) (len : Nat)
    (hx : FirstHeader hostTarget (s.data ++ bytesOf s.src) (l ++ (id ++ 46 :: (mid ++ 46 :: rest)) ++ r) len) (hlen : len ≤ 2049)
    (hl : WS l) (hr : WS r) (ht : Tight (id ++ 46 :: (mid ++ 46 :: rest)))
    (hid : id ≠ []) (hid' : (46 : UInt8) ∉ id) (hm : mid ≠ []) (hm' : (46 : UInt8) ∉ mid)
    (hsz : (id ++ 46 :: (mid ++ 46 :: rest)).length ≤ 512) :
    ∃ s', httpID trimSpace (ascii "Host") s = some (some id, s') ∧ s'.data ++ bytesOf s'.src = s.data ++ bytesOf s.src := by
  have htr := trimSpace_eq l (id ++ 46 :: (mid ++ 46 :: rest)) r hl hr (by simp) ht
  have hpos : 1 ≤ (id ++ 46 :: (mid ++ 46 :: rest)).length := by simp; omega
  obtain ⟨s', h1⟩ := header_found trimSpace hostTarget s hcap hfit hcl he _ len hx hlen (by rw [htr]; exact ⟨hpos, hsz⟩)
  rw [htr] at h1
  obtain ⟨res, s'', g1, g2, _⟩ := header_search trimSpace hostTarget s hcap hfit
  rw [h1] at g1
  simp only [Option.some.injEq, Prod.mk.injEq] at g1
  obtain ⟨rfl, rfl⟩ := g1
  refine ⟨s', ?_, g2⟩
  unfold httpID
  rw [if_pos rfl, h1]
  simp only
  rw [if_neg (by omega), (id_from_host _ id).2 ⟨mid, rest, rfl, hid', hm, hm'⟩]
  simp only
  rw [if_neg (by have := List.length_pos_iff.2 hid; omega)]

/-- **C05, end to end, any other header**: the id is the value of the first such line, without the white space around it.
Missing from the claim: lines that end beyond the first 2049 bytes, where it is false (`header_beyond_limit_depends_on_segmentation`). -/
theorem header_request_routed_partial (mux : Bytes) (hmux : mux ≠ ascii "Host") (s : Rd) (hcap : 2049 ≤ s.cap)
    (hfit : s.r + s.data.length ≤ s.cap) (hcl : Clean s.src) (he : s.err = none) (l id r : Bytes) (len : Nat)
    (hx : FirstHeader (mux ++ [58]) (s.data ++ bytesOf s.src) (l ++ id ++ r) len) (hlen : len ≤ 2049)
    (hl : WS l) (hr : WS r) (ht : Tight id) (hid : id ≠ []) (hsz : id.length ≤ 512) :
    ∃ s', httpID trimSpace mux s = some (some id, s') ∧ s'.data ++ bytesOf s'.src = s.data ++ bytesOf s.src := by
  have htr := trimSpace_eq l id r hl hr hid ht
  have hpos := List.length_pos_iff.2 hid
  obtain ⟨s', h1⟩ := header_found trimSpace (mux ++ [58]) s hcap hfit hcl he _ len hx hlen (by rw [htr]; omega)
  rw [htr] at h1
  obtain ⟨res, s'', g1, g2, _⟩ := header_search trimSpace (mux ++ [58]) s hcap hfit
  rw [h1] at g1
  simp only [Option.some.injEq, Prod.mk.injEq] at g1
  obtain ⟨rfl, rfl⟩ := g1
  refine ⟨s', ?_, g2⟩
  unfold httpID
  rw [if_neg hmux, h1]
  simp only
  rw [if_neg (by omega)]

/-! ### Witnesses -/

example : WS (ascii "\r") ∧ WS (ascii "  ") ∧ Tight (ascii "web.x.org") :=
  ⟨⟨[[13]], by decide, rfl⟩, ⟨[[32], [32]], by decide, rfl⟩, tight_of_ends (a := 119) (b := 103) (by decide +kernel) (by decide +kernel) (by decide) (by decide)⟩
example : trimSpace [32, 0xC2, 0xA0, 97, 32, 98, 0xE3, 0x80, 0x80, 13] = [97, 32, 98] := by decide +kernel
/-- Half a character is kept. -/
example : trimSpace [32, 0xC2, 97, 0x85, 13] = [0xC2, 97, 0x85] := by decide +kernel
example : (httpID trimSpace (ascii "Host") (Rd.new 4096 [(ascii "GET / HTTP/1.1\r\nHo", none), (ascii "st:  web.x.org \r\n\r\n", none)])).map (·.1) =
    some (some (ascii "web")) := by decide +kernel

end Verif.Route
