import Verif.Bufio.ReadRune
set_option linter.unusedSimpArgs false
set_option linter.unusedVariables false
/-!
# C145 (words): `ScanWords` (libcs/bufio/scan.go:366-420)

`ScanWords` also goes on without a token (over leading spaces). `utf8.DecodeRune` (standard library) as in
`Verif.Bufio.Runes`.
-/
namespace Verif.Bufio.Words
open Verif Verif.Bufio Verif.Bufio.Scanner
open Verif.Bufio.Runes (decode fullRune enc Scalar)

/-- libcs/bufio/scan.go:369-389 `isSpace`. -/
def isSpace (r : Nat) : Bool :=
  if r ≤ 0xFF then
    r == 32 || r == 9 || r == 10 || r == 11 || r == 12 || r == 13 || r == 0x85 || r == 0xA0
  else if 0x2000 ≤ r ∧ r ≤ 0x200a then true
  else r == 0x1680 || r == 0x2028 || r == 0x2029 || r == 0x202f || r == 0x205f || r == 0x3000

/-- libcs/bufio/scan.go:397-404: the first loop of `ScanWords`, how many bytes it goes over. (Fuel: at least the length + 1.) -/
def skip : Nat → Bytes → Nat
  | 0, _ => 0
  | f + 1, d =>
    if d = [] then 0
    else if isSpace (decode d).1 then (decode d).2 + skip f (d.drop (decode d).2) else 0

/-- libcs/bufio/scan.go:406-412: the second loop, where it finds a space and how wide that is. -/
def toSpace : Nat → Bytes → Option (Nat × Nat)
  | 0, _ => none
  | f + 1, d =>
    if d = [] then none
    else if isSpace (decode d).1 then some (0, (decode d).2)
    else (toSpace f (d.drop (decode d).2)).map fun q => ((decode d).2 + q.1, q.2)

/-- libcs/bufio/scan.go:395-419 `ScanWords`. -/
def scanWords : Split := fun data atEOF =>
  let start := skip (data.length + 1) data
  let rest := data.drop start
  match toSpace (rest.length + 1) rest with
  | some (i, width) => .ok (start + i + width) (some (rest.take i))
  | none => if atEOF = true ∧ data.length > start then .ok data.length (some rest) else .ok start none

/-! ## Specification -/

/-- Unicode White_Space. -/
def Space (r : Nat) : Prop :=
  (9 ≤ r ∧ r ≤ 13) ∨ r = 32 ∨ r = 0x85 ∨ r = 0xA0 ∨ r = 0x1680 ∨ (0x2000 ≤ r ∧ r ≤ 0x200A) ∨ r = 0x2028 ∨ r = 0x2029 ∨
    r = 0x202F ∨ r = 0x205F ∨ r = 0x3000

/-- The words of a text: the longest stretches without space characters; bytes with which no encoding begins belong to words.
`cur`: the current word so far. -/
inductive Words : Bytes → Bytes → List Bytes → Prop
  | nil : Words [] [] []
  | last (cur : Bytes) : cur ≠ [] → Words cur [] [cur]
  | gap (r : Nat) (rest : Bytes) (ws : List Bytes) : Scalar r → Space r → Words [] rest ws → Words [] (enc r ++ rest) ws
  | word (cur : Bytes) (r : Nat) (rest : Bytes) (ws : List Bytes) : cur ≠ [] → Scalar r → Space r → Words [] rest ws →
      Words cur (enc r ++ rest) (cur :: ws)
  | rune (cur : Bytes) (r : Nat) (rest : Bytes) (ws : List Bytes) : Scalar r → ¬ Space r → Words (cur ++ enc r) rest ws →
      Words cur (enc r ++ rest) ws
  | bad (cur : Bytes) (b : UInt8) (rest : Bytes) (ws : List Bytes) : (∀ r x, Scalar r → b :: rest ≠ enc r ++ x) →
      Words (cur ++ [b]) rest ws → Words cur (b :: rest) ws

/-! ## The two loops -/

theorem isSpace_iff (r : Nat) : isSpace r = true ↔ Space r := by
  unfold isSpace Space
  by_cases h : r ≤ 0xFF
  · rw [if_pos h]
    simp only [Bool.or_eq_true, beq_iff_eq]
    omega
  · rw [if_neg h]
    by_cases h2 : 0x2000 ≤ r ∧ r ≤ 0x200a
    · rw [if_pos h2]; simp; omega
    · rw [if_neg h2]
      simp only [Bool.or_eq_true, beq_iff_eq]
      omega

theorem chunk_ind (P : Bytes → Prop) (h0 : P []) (h1 : ∀ d, d ≠ [] → P (d.drop (decode d).2) → P d) (d : Bytes) : P d := by
  have : ∀ (m : Nat) (d : Bytes), d.length < m → P d := by
    intro m
    induction m with
    | zero => intro d h; omega
    | succ m ih =>
      intro d h
      by_cases hd : d = []
      · subst hd; exact h0
      · have hw := Runes.decode_width d hd
        exact h1 d hd (ih _ (by rw [List.length_drop]; omega))
  exact this (d.length + 1) d (by omega)

theorem skip_fuel : ∀ (f g : Nat) (d : Bytes), d.length < f → d.length < g → skip f d = skip g d := by
  intro f
  induction f with
  | zero => intro g d h; omega
  | succ f ih =>
    intro g d hf hg
    obtain ⟨g', rfl⟩ : ∃ g', g = g' + 1 := ⟨g - 1, by omega⟩
    unfold skip
    by_cases hd : d = []
    · rw [if_pos hd, if_pos hd]
    · have hw := Runes.decode_width d hd
      rw [if_neg hd, if_neg hd, ih g' (d.drop (decode d).2) (by rw [List.length_drop]; omega) (by rw [List.length_drop]; omega)]

theorem toSpace_fuel : ∀ (f g : Nat) (d : Bytes), d.length < f → d.length < g → toSpace f d = toSpace g d := by
  intro f
  induction f with
  | zero => intro g d h; omega
  | succ f ih =>
    intro g d hf hg
    obtain ⟨g', rfl⟩ : ∃ g', g = g' + 1 := ⟨g - 1, by omega⟩
    unfold toSpace
    by_cases hd : d = []
    · rw [if_pos hd, if_pos hd]
    · have hw := Runes.decode_width d hd
      rw [if_neg hd, if_neg hd, ih g' (d.drop (decode d).2) (by rw [List.length_drop]; omega) (by rw [List.length_drop]; omega)]

def sk (d : Bytes) : Nat := skip (d.length + 1) d
def ts (d : Bytes) : Option (Nat × Nat) := toSpace (d.length + 1) d

theorem sk_nil : sk [] = 0 := rfl
theorem ts_nil : ts [] = none := rfl

theorem sk_eq (d : Bytes) (hd : d ≠ []) :
    sk d = if isSpace (decode d).1 then (decode d).2 + sk (d.drop (decode d).2) else 0 := by
  have hw := Runes.decode_width d hd
  unfold sk
  conv => lhs; unfold skip
  rw [if_neg hd, skip_fuel d.length _ (d.drop (decode d).2) (by rw [List.length_drop]; omega) (Nat.lt_succ_self _)]

theorem ts_eq (d : Bytes) (hd : d ≠ []) :
    ts d = if isSpace (decode d).1 then some (0, (decode d).2)
      else (ts (d.drop (decode d).2)).map fun q => ((decode d).2 + q.1, q.2) := by
  have hw := Runes.decode_width d hd
  unfold ts
  conv => lhs; unfold toSpace
  rw [if_neg hd, toSpace_fuel d.length _ (d.drop (decode d).2) (by rw [List.length_drop]; omega) (Nat.lt_succ_self _)]

theorem scanWords_eq (d : Bytes) (b : Bool) :
    scanWords d b = match ts (d.drop (sk d)) with
      | some q => .ok (sk d + q.1 + q.2) (some ((d.drop (sk d)).take q.1))
      | none => if b = true ∧ d.length > sk d then .ok d.length (some (d.drop (sk d))) else .ok (sk d) none := by
  unfold scanWords sk ts
  dsimp only
  generalize toSpace _ _ = o
  cases o <;> rfl

/-- Prefixes decode alike: a chunk is found as soon as it is there. -/
theorem decode_prefix (d x : Bytes) (hd : d ≠ []) (h : (decode (d ++ x)).2 ≤ d.length) : decode d = decode (d ++ x) := by
  by_cases h1 : (decode d).2 > 1
  · rw [Runes.decode_append d x h1]
  · by_cases h2 : (decode (d ++ x)).2 > 1
    · obtain ⟨k1, k2, k3⟩ := Runes.decode_sound _ h2
      rw [List.take_append_of_le_length h] at k3
      have : d = enc (decode (d ++ x)).1 ++ d.drop (decode (d ++ x)).2 := by rw [k3, List.take_append_drop]
      have e := Runes.decode_enc _ k1 (d.drop (decode (d ++ x)).2)
      rw [← this, k2] at e
      exact e
    · cases d with
      | nil => exact absurd rfl hd
      | cons b t =>
        by_cases h0 : b.toNat < 0x80
        · rw [List.cons_append, (Runes.decode_ascii b _ h0).1, (Runes.decode_ascii b _ h0).1]
        · have w1 := Runes.decode_width (b :: t) (by simp)
          have w2 := Runes.decode_width (b :: t ++ x) (by simp)
          have nb : ∀ (u : Bytes), (decode (b :: u)).2 = 1 → decode (b :: u) = (0xFFFD, 1) := by
            intro u hu
            rcases ReadRune.decode_cases (b :: u) (by simp) with ⟨k1, k2⟩ | ⟨k1, _⟩
            · exfalso
              have e : b :: u = enc (decode (b :: u)).1 ++ (b :: u).drop (decode (b :: u)).2 := by
                rw [k2, List.take_append_drop]
              exact Runes.no_enc b u h0 hu _ _ k1 e
            · exact k1
          rw [nb t (by omega), List.cons_append, nb (t ++ x) (by rw [← List.cons_append]; omega)]

/-- An unfinished rune at the end holds no space. -/
theorem not_full (d : Bytes) (h : fullRune d = false) : sk d = 0 ∧ ts d = none := by
  have hbad : ∀ (b : UInt8) (t : Bytes), 0x80 ≤ b.toNat → b.toNat ≤ 0xBF → decode (b :: t) = (0xFFFD, 1) := by
    intro b t h1 h2
    have hl : (Runes.lead b.toNat).1 = 1 := by unfold Runes.lead; rw [if_pos (by omega)]
    simp only [decode]
    rw [if_neg (by omega), if_neg (by omega), if_neg (by omega), if_neg (by omega)]
  have hsp : isSpace 0xFFFD = false := by decide
  have one : ∀ (b : UInt8) (t : Bytes), decode (b :: t) = (0xFFFD, 1) → ts t = none →
      sk (b :: t) = 0 ∧ ts (b :: t) = none := by
    intro b t h1 h2
    rw [sk_eq _ (by simp), ts_eq _ (by simp), h1]
    simp only [hsp]
    exact ⟨rfl, by simp [h2]⟩
  have hsec : ∀ b0 b1 : UInt8, 2 ≤ (Runes.lead b0.toNat).1 → Runes.second b0 b1 = true → 0x80 ≤ b1.toNat ∧ b1.toNat ≤ 0xBF := by
    intro b0 b1 hl hs
    have hlead : ∀ n, (Runes.lead n).1 = 1 ∨ (0x80 ≤ (Runes.lead n).2.1 ∧ (Runes.lead n).2.2 ≤ 0xBF) := by
      intro n
      unfold Runes.lead
      repeat' split
      all_goals first
        | exact Or.inl rfl
        | exact Or.inr ⟨by decide, by decide⟩
    have hr := (hlead b0.toNat).resolve_left (by omega)
    unfold Runes.second at hs
    simp only [Bool.and_eq_true, decide_eq_true_eq] at hs
    omega
  have ascii : ∀ b0 : UInt8, 2 ≤ (Runes.lead b0.toNat).1 → ¬ b0.toNat < 0x80 := by
    intro b0 hl h0
    have : (Runes.lead b0.toNat).1 = 1 := by unfold Runes.lead; rw [if_pos (by omega)]
    omega
  match d with
  | [] => exact ⟨rfl, rfl⟩
  | [b0] =>
    simp only [fullRune, decide_eq_false_iff_not] at h
    have ha := ascii b0 (by omega)
    refine one b0 [] ?_ rfl
    simp only [decode, Runes.decode2, Runes.decode3, Runes.decode4]
    rw [if_neg ha]
    simp
  | [b0, b1] =>
    simp only [fullRune, Bool.or_eq_false_iff, decide_eq_false_iff_not, Bool.not_eq_false'] at h
    have ha := ascii b0 (by omega)
    have hb := hsec b0 b1 (by omega) h.2
    refine one b0 [b1] ?_ (one b1 [] (hbad b1 [] hb.1 hb.2) rfl).2
    simp only [decode, Runes.decode2, Runes.decode3, Runes.decode4]
    rw [if_neg ha, if_neg (by omega)]
    simp
  | [b0, b1, b2] =>
    simp only [fullRune, Bool.or_eq_false_iff, decide_eq_false_iff_not, Bool.not_eq_false'] at h
    have ha := ascii b0 (by omega)
    have hb := hsec b0 b1 (by omega) h.1.2
    have hc : 0x80 ≤ b2.toNat ∧ b2.toNat ≤ 0xBF := by
      have := h.2; unfold Runes.cont at this; simpa using this
    refine one b0 [b1, b2] ?_ (one b1 [b2] (hbad b1 [b2] hb.1 hb.2) (one b2 [] (hbad b2 [] hc.1 hc.2) rfl).2).2
    simp only [decode, Runes.decode2, Runes.decode3, Runes.decode4]
    rw [if_neg ha, if_neg (by omega), if_neg (by omega)]
    simp
  | _ :: _ :: _ :: _ :: _ => simp [fullRune] at h

theorem space_append (d x : Bytes) (hd : d ≠ []) (h : isSpace (decode d).1 = true) : decode (d ++ x) = decode d := by
  by_cases hf : fullRune d = true
  · exact Runes.decode_full d x hf
  · exfalso
    have := (not_full d (by simpa using hf)).2
    rw [ts_eq d hd, if_pos h] at this
    cases this

theorem sk_append (x : Bytes) (d : Bytes) : sk d ≤ d.length ∧ sk (d ++ x) = sk d + sk (d.drop (sk d) ++ x) ∧
    sk (d.drop (sk d)) = 0 := by
  refine chunk_ind (fun d => sk d ≤ d.length ∧ sk (d ++ x) = sk d + sk (d.drop (sk d) ++ x) ∧ sk (d.drop (sk d)) = 0) ?_ ?_ d
  · simp [sk_nil]
  · intro d hd ⟨i1, i2, i3⟩
    have hw := Runes.decode_width d hd
    by_cases hs : isSpace (decode d).1 = true
    · have e := sk_eq d hd
      rw [if_pos hs] at e
      have e2 := sk_eq (d ++ x) (by simp [hd])
      rw [space_append d x hd hs, if_pos hs, List.drop_append_of_le_length hw.2.1, i2] at e2
      rw [List.length_drop] at i1
      refine ⟨by omega, ?_, ?_⟩
      · rw [e2, e, List.drop_drop] ; omega
      · rw [e, ← List.drop_drop]; exact i3
    · have e := sk_eq d hd
      rw [if_neg hs] at e
      rw [e]
      simp [e]

theorem ts_append (x : Bytes) (d : Bytes) : ∀ i w, ts d = some (i, w) → i + w ≤ d.length ∧ 0 < w ∧ ts (d ++ x) = some (i, w) := by
  refine chunk_ind (fun d => ∀ i w, ts d = some (i, w) → i + w ≤ d.length ∧ 0 < w ∧ ts (d ++ x) = some (i, w)) ?_ ?_ d
  · intro i w h; cases h
  · intro d hd ih i w h
    have hw := Runes.decode_width d hd
    have hf : fullRune d = true := by
      by_cases hf : fullRune d = true
      · exact hf
      · rw [(not_full d (by simpa using hf)).2] at h; cases h
    have hdec := Runes.decode_full d x hf
    rw [ts_eq d hd] at h
    rw [ts_eq (d ++ x) (by simp [hd]), hdec]
    by_cases hs : isSpace (decode d).1 = true
    · rw [if_pos hs] at h ⊢
      cases h
      exact ⟨by omega, by omega, rfl⟩
    · rw [if_neg hs] at h ⊢
      cases hq : ts (d.drop (decode d).2) with
      | none => rw [hq] at h; cases h
      | some q =>
        rw [hq] at h
        obtain ⟨rfl, rfl⟩ := Prod.mk.inj (Option.some.inj h)
        obtain ⟨j1, j2, j3⟩ := ih q.1 q.2 hq
        rw [List.length_drop] at j1
        refine ⟨by omega, j2, ?_⟩
        rw [List.drop_append_of_le_length hw.2.1, j3]
        rfl

theorem ts_prefix (x : Bytes) (d : Bytes) : ∀ i w, ts (d ++ x) = some (i, w) → i + w ≤ d.length → ts d = some (i, w) := by
  refine chunk_ind (fun d => ∀ i w, ts (d ++ x) = some (i, w) → i + w ≤ d.length → ts d = some (i, w)) ?_ ?_ d
  · intro i w h hl
    have := ts_append [] _ _ _ h
    simp at hl
    omega
  · intro d hd ih i w h hl
    rw [ts_eq (d ++ x) (by simp [hd])] at h
    by_cases hs : isSpace (decode (d ++ x)).1 = true
    · rw [if_pos hs] at h
      obtain ⟨rfl, rfl⟩ := Prod.mk.inj (Option.some.inj h)
      have hdec := decode_prefix d x hd (by omega)
      rw [ts_eq d hd, hdec, if_pos hs]
    · rw [if_neg hs] at h
      cases hq : ts ((d ++ x).drop (decode (d ++ x)).2) with
      | none => rw [hq] at h; cases h
      | some q =>
        rw [hq] at h
        obtain ⟨rfl, rfl⟩ := Prod.mk.inj (Option.some.inj h)
        have hdec := decode_prefix d x hd (by omega)
        have hw := Runes.decode_width d hd
        rw [← hdec, List.drop_append_of_le_length hw.2.1] at hq
        rw [← hdec] at hl hs
        have := ih q.1 q.2 hq (by rw [List.length_drop]; omega)
        rw [ts_eq d hd, if_neg hs, this, ← hdec]
        rfl

theorem ts_pos (d : Bytes) (h0 : sk d = 0) (i w : Nat) (h : ts d = some (i, w)) : 0 < i := by
  by_cases hd : d = []
  · subst hd; cases h
  · have hw := Runes.decode_width d hd
    rw [sk_eq d hd] at h0
    rw [ts_eq d hd] at h
    by_cases hs : isSpace (decode d).1 = true
    · rw [if_pos hs] at h0; omega
    · rw [if_neg hs] at h
      cases hq : ts (d.drop (decode d).2) with
      | none => rw [hq] at h; cases h
      | some q =>
        rw [hq] at h
        obtain ⟨rfl, rfl⟩ := Prod.mk.inj (Option.some.inj h)
        omega

/-- The rest begins with no space, whatever follows, once the end of a word is there. -/
theorem sk_zero_append (x u : Bytes) (h0 : sk u = 0) (hu : fullRune u = true) : sk (u ++ x) = 0 := by
  have hne : u ≠ [] := by intro h; rw [h] at hu; simp [fullRune] at hu
  have hw := Runes.decode_width u hne
  have hdec := Runes.decode_full u x hu
  rw [sk_eq _ hne] at h0
  rw [sk_eq (u ++ x) (by simp [hne]), hdec]
  by_cases hs : isSpace (decode u).1 = true
  · rw [if_pos hs] at h0; omega
  · rw [if_neg hs]

/-! ## The scanner with a split function that also goes on without a token -/

/-- `n` bytes further. -/
def later (n : Nat) : Ans → Ans
  | .ok m t => .ok (n + m) t
  | a => a

/-- A split function that decides the same way however much of the rest is already there, and may skip. -/
structure GoodS (sp : Split) : Prop where
  tok : ∀ d n t, d ≠ [] → sp d false = .ok n t →
    (t = none ∧ n ≤ d.length ∧ ∀ x b, sp (d ++ x) b = later n (sp (d.drop n ++ x) b)) ∨
    (∃ t', t = some t' ∧ 0 < n ∧ n ≤ d.length ∧ ∀ x b, sp (d ++ x) b = .ok n (some t'))
  ok : ∀ d b, d ≠ [] ∨ b = true → ∃ n t, sp d b = .ok n t
  eof : ∀ d n t, sp d true = .ok n (some t) → 0 < n ∧ n ≤ d.length
  eofNone : ∀ d n, sp d true = .ok n none → n ≤ d.length

/-- A condition that says the scanner gets a token before a buffer of `l` bytes is full of what it cannot skip. -/
structure Room (sp : Split) (l : Nat) (P : Bytes → Prop) : Prop where
  skipped : ∀ d n x, P (d ++ x) → d ≠ [] → sp d false = .ok n none → P ((d ++ x).drop n)
  full : ∀ R, P R → l ≤ R.length → sp (R.take l) false ≠ .ok 0 none

theorem scanLoop_words (sp : Split) (g : GoodS sp) (l : Nat) (P : Bytes → Prop) (room : Room sp l P) : ∀ (f : Nat) (s : Sc) (R : Bytes)
    (e : Err), Rem s R e → (s.err = none → weight s.src + 2 ≤ f) → 1 ≤ f → 0 < l → lim s = l → P R →
    (∀ n t, sp R true = .ok n (some t) →
      ∃ s', scanLoop sp f s = some (.yes (some t), s') ∧ Rem s' (R.drop n) e ∧ lim s' = l) ∧
    (∀ n, sp R true = .ok n none →
      ∃ s', scanLoop sp f s = some (.no, s') ∧ s'.err = some (.io e) ∧ s'.data = [] ∧ s'.done = false) := by
  intro f
  induction f with
  | zero => intro s R e _ _ h; omega
  | succ f ih =>
    intro s R e hr hf _ hpos hl hP
    obtain ⟨hd, hfit, hr'⟩ := hr
    unfold scanLoop
    rcases hr' with ⟨he, hR, hE, hL⟩ | ⟨he, hR⟩
    · by_cases htok : s.data ≠ [] ∧ ∃ n t, sp s.data false = .ok n (some t)
      · obtain ⟨hnil, n, t, ht⟩ := htok
        rcases g.tok _ _ _ hnil ht with h | ⟨t', h1, h2, h3, h4⟩
        · cases h.1
        · cases h1
          have hall : sp R true = .ok n (some t) := by rw [hR]; exact h4 _ _
          have hat : attempt sp s = .ret (.yes (some t))
              { s with start := s.start + n, data := s.data.drop n, empties := 0 } := by
            unfold attempt
            rw [if_pos (Or.inl hnil)]
            have hb : (s.err != none) = false := by rw [he]; rfl
            rw [hb, ht]
            dsimp only
            rw [if_neg (by omega), if_pos (Or.inl he)]
          rw [hat]
          constructor
          · intro n' t' h'
            rw [hall] at h'
            cases h'
            refine ⟨_, rfl, ⟨hd, by dsimp only; rw [List.length_drop]; omega, Or.inl ⟨he, ?_, hE, hL⟩⟩, hl⟩
            dsimp only
            rw [hR, List.drop_append_of_le_length h3]
          · intro n' h'
            rw [hall] at h'; cases h'
      · -- no token yet: `k` bytes are skipped
        obtain ⟨k, hk, hat, hrest, hlaw, hPk⟩ : ∃ k, k ≤ s.data.length ∧
            attempt sp s = .more { s with start := s.start + k, data := s.data.drop k } ∧
            (s.data.drop k = [] ∨ sp (s.data.drop k) false = .ok 0 none) ∧
            (∀ x b, sp (s.data ++ x) b = later k (sp (s.data.drop k ++ x) b)) ∧ P (R.drop k) := by
          by_cases hnil : s.data = []
          · refine ⟨0, by omega, ?_, Or.inl (by rw [hnil]; rfl), ?_, by simpa using hP⟩
            · unfold attempt
              rw [if_neg (by simp [hnil, he])]
              rfl
            · intro x b
              rw [List.drop_zero]
              cases sp (s.data ++ x) b <;> simp [later]
          · obtain ⟨n, t, ht⟩ := g.ok s.data false (Or.inl hnil)
            rcases g.tok _ _ _ hnil ht with ⟨h1, h2, h3⟩ | ⟨t', h1, _⟩
            · subst h1
              refine ⟨n, h2, ?_, ?_, h3, ?_⟩
              · unfold attempt
                rw [if_pos (Or.inl hnil)]
                have hb : (s.err != none) = false := by rw [he]; rfl
                rw [hb, ht]
                dsimp only
                rw [if_neg (by omega)]
              · by_cases hz : s.data.drop n = []
                · exact Or.inl hz
                · right
                  have h4 := h3 [] false
                  rw [List.append_nil, List.append_nil, ht] at h4
                  obtain ⟨m, t, ht'⟩ := g.ok (s.data.drop n) false (Or.inl hz)
                  rw [ht'] at h4 ⊢
                  simp only [later, Ans.ok.injEq] at h4
                  rw [← h4.2]
                  congr 1
                  omega
              · rw [hR]
                exact room.skipped _ _ _ (by rw [← hR]; exact hP) hnil ht
            · exact absurd ⟨hnil, n, t', by rw [ht, h1]⟩ htok
        rw [hat]
        have hRk : R.drop k = s.data.drop k ++ (stream s.src).1 := by
          rw [hR, List.drop_append_of_le_length hk]
        have hall : ∀ b, sp R b = later k (sp (R.drop k) b) := by
          intro b; rw [hRk]; conv => lhs; rw [hR]
          exact hlaw _ b
        have hrem : Rem { s with start := s.start + k, data := s.data.drop k } (R.drop k) e :=
          ⟨hd, by dsimp only; rw [List.length_drop]; omega, Or.inl ⟨he, hRk, hE, hL⟩⟩
        have hcap0 : lim { s with start := s.start + k, data := s.data.drop k } = l := hl
        have hw0 : weight ({ s with start := s.start + k, data := s.data.drop k } : Sc).src = weight s.src := rfl
        have he0 : ({ s with start := s.start + k, data := s.data.drop k } : Sc).err = none := he
        have hL0 : Lively ({ s with start := s.start + k, data := s.data.drop k } : Sc).src := hL
        have hrest0 : ({ s with start := s.start + k, data := s.data.drop k } : Sc).data = [] ∨
          sp ({ s with start := s.start + k, data := s.data.drop k } : Sc).data false = .ok 0 none := hrest
        have hRk0 : R.drop k = ({ s with start := s.start + k, data := s.data.drop k } : Sc).data ++
          (stream ({ s with start := s.start + k, data := s.data.drop k } : Sc).src).1 := hRk
        have hf' := hf he
        rw [← hw0] at hf'
        generalize ({ s with start := s.start + k, data := s.data.drop k } : Sc) = t at hrem hcap0 hw0 he0 hL0 hrest0 hRk0 hf'
        dsimp only
        rw [if_neg (by simp [he0])]
        obtain ⟨s1, s2, s3, s4, s5, s6, s7⟩ := shift_spec t (R.drop k) e hrem
        have hroom : (shift t).start + (shift t).data.length = (shift t).cap → (shift t).cap < (shift t).max := by
          intro hx
          rw [s6, s2] at hx
          have hfull := s7 hx
          rw [s2, s3]
          by_cases hm : t.cap < t.max
          · exact hm
          · exfalso
            have hlimc : l = t.cap := by
              rw [← hcap0]; unfold lim; split <;> omega
            have htake : (R.drop k).take l = t.data := by
              rw [hRk0, List.take_append_of_le_length (by omega), List.take_of_length_le (by omega)]
            have hlen : l ≤ (R.drop k).length := by
              rw [hRk0, List.length_append]; omega
            rcases hrest0 with h0 | h0
            · rw [h0] at hfull
              simp at hfull
              omega
            · exact room.full _ hPk hlen (by rw [htake]; exact h0)
        obtain ⟨s', r1, r2, r3, r4, r5, r6, r7⟩ := resize_spec _ (R.drop k) e s1 hroom
        rw [r1]
        dsimp only
        have he' : s'.err = none := by rw [r3, s4]; exact he0
        have hL' : Lively s'.src := by rw [r4, s5]; exact hL0
        obtain ⟨l1, l2, l3, l4⟩ := readLoop_spec 101 s' (R.drop k) e r2 he' r7 (by have := lively_ahead _ hL'; omega)
        have hlim' : lim (readLoop 101 s') = l := by
          have : lim (readLoop 101 s') = lim s' := by unfold lim; rw [l2, l3]
          rw [this, r6, ← hcap0]; unfold lim; rw [s2, s3]
        have hwt : weight s'.src = weight t.src := by rw [r4, s5]
        obtain ⟨a, b⟩ := ih (readLoop 101 s') (R.drop k) e l1 (fun hn => by
          rcases l4 with l4 | ⟨_, l5, _⟩
          · exact absurd hn l4
          · omega) (by omega) hpos hlim' hPk
        have hback : ∀ n o, sp R true = .ok n o → ∃ m, n = k + m ∧ sp (R.drop k) true = .ok m o := by
          intro n o h
          rw [hall] at h
          obtain ⟨m, u, hu⟩ := g.ok (R.drop k) true (Or.inr rfl)
          rw [hu] at h
          simp only [later, Ans.ok.injEq] at h
          exact ⟨m, h.1.symm, by rw [hu, h.2]⟩
        refine ⟨fun n t h => ?_, fun n h => ?_⟩
        · obtain ⟨m, rfl, hm⟩ := hback _ _ h
          obtain ⟨s'', x1, x2, x3⟩ := a m t hm
          exact ⟨s'', x1, by rw [← List.drop_drop]; exact x2, x3⟩
        · obtain ⟨m, rfl, hm⟩ := hback _ _ h
          exact b m hm
    · have hb : (s.err != none) = true := by rw [he]; rfl
      constructor
      · intro n t h
        rw [hR] at h
        obtain ⟨p1, p2⟩ := g.eof _ _ _ h
        have hat : attempt sp s = .ret (.yes (some t))
            { s with start := s.start + n, data := s.data.drop n, empties := 0 } := by
          unfold attempt
          rw [if_pos (Or.inr (by simp [he])), hb, h]
          dsimp only
          rw [if_neg (by omega), if_pos (Or.inr p1)]
        rw [hat]
        refine ⟨_, rfl, ⟨hd, by dsimp only; rw [List.length_drop]; omega, Or.inr ⟨he, by dsimp only; rw [hR]⟩⟩, hl⟩
      · intro n h
        rw [hR] at h
        have p := g.eofNone _ _ h
        have hat : attempt sp s = .more { s with start := s.start + n, data := s.data.drop n } := by
          unfold attempt
          rw [if_pos (Or.inr (by simp [he])), hb, h]
          dsimp only
          rw [if_neg (by omega)]
        rw [hat]
        dsimp only
        rw [if_pos (by simp [he])]
        exact ⟨_, rfl, he, rfl, hd⟩

theorem scanAll_words (sp : Split) (g : GoodS sp) (l : Nat) (P : Bytes → Prop) (room : Room sp l P)
    (after : ∀ R n t, P R → sp R true = .ok n (some t) → P (R.drop n)) (e : Err) : ∀ (m : Nat) (s : Sc) (R : Bytes),
    R.length < m → Rem s R e → 0 < l → lim s = l → P R →
    ∃ s', (∀ f, R.length < f → scanAll sp f s = some ((tokens sp m R).map some, s')) ∧
      s'.err = some (.io e) ∧ s'.data = [] ∧ s'.done = false := by
  intro m
  induction m with
  | zero => intro s R h; omega
  | succ m ih =>
    intro s R hm hr hpos hl hP
    obtain ⟨h1, h2⟩ := scanLoop_words sp g l P room (weight s.src + 3) s R e hr (fun _ => by omega) (by omega) hpos hl hP
    have hsc := scan_eq sp s hr.1
    obtain ⟨n, t, hsp⟩ := g.ok R true (Or.inr rfl)
    cases t with
    | none =>
      obtain ⟨s', x1, x2, x3, x4⟩ := h2 n hsp
      refine ⟨s', fun f hf => ?_, x2, x3, x4⟩
      obtain ⟨f', rfl⟩ : ∃ f', f = f' + 1 := ⟨f - 1, by omega⟩
      unfold scanAll
      rw [hsc, x1]
      simp [tokens, hsp]
    | some t =>
      obtain ⟨s1, x1, x2, x3⟩ := h1 n t hsp
      obtain ⟨p1, p2⟩ := g.eof _ _ _ hsp
      obtain ⟨s', y1, y2, y3, y4⟩ := ih s1 (R.drop n) (by rw [List.length_drop]; omega) x2 hpos x3 (after R n t hP hsp)
      refine ⟨s', fun f hf => ?_, y2, y3, y4⟩
      obtain ⟨f', rfl⟩ : ∃ f', f = f' + 1 := ⟨f - 1, by omega⟩
      unfold scanAll
      rw [hsc, x1]
      dsimp only
      rw [y1 f' (by rw [List.length_drop]; omega)]
      simp [tokens, hsp]

/-! ## `ScanWords` is such a function -/

theorem ts_width (d : Bytes) : ∀ i w, ts d = some (i, w) → w ≤ 4 := by
  refine chunk_ind (fun d => ∀ i w, ts d = some (i, w) → w ≤ 4) ?_ ?_ d
  · intro i w h; cases h
  · intro d hd ih i w h
    have hw := Runes.decode_width d hd
    rw [ts_eq d hd] at h
    by_cases hs : isSpace (decode d).1 = true
    · rw [if_pos hs] at h; cases h; exact hw.2.2
    · rw [if_neg hs] at h
      cases hq : ts (d.drop (decode d).2) with
      | none => rw [hq] at h; cases h
      | some q =>
        rw [hq] at h
        obtain ⟨rfl, rfl⟩ := Prod.mk.inj (Option.some.inj h)
        exact ih q.1 q.2 hq

/-- The split function goes over leading spaces first. -/
theorem scan_later (d x : Bytes) (b : Bool) : scanWords (d ++ x) b = later (sk d) (scanWords (d.drop (sk d) ++ x) b) := by
  obtain ⟨h1, h2, _⟩ := sk_append x d
  rw [scanWords_eq, scanWords_eq, h2]
  have hd : (d ++ x).drop (sk d + sk (d.drop (sk d) ++ x)) = (d.drop (sk d) ++ x).drop (sk (d.drop (sk d) ++ x)) := by
    rw [← List.drop_drop, List.drop_append_of_le_length h1]
  rw [hd]
  cases ts ((d.drop (sk d) ++ x).drop (sk (d.drop (sk d) ++ x))) with
  | some q => simp only [later]; congr 1; omega
  | none =>
    dsimp only
    have hlen : (d ++ x).length = sk d + (d.drop (sk d) ++ x).length := by
      rw [List.length_append, List.length_append, List.length_drop]; omega
    by_cases hb : b = true ∧ (d.drop (sk d) ++ x).length > sk (d.drop (sk d) ++ x)
    · rw [if_pos hb, if_pos ⟨hb.1, by omega⟩, hlen]
      rfl
    · rw [if_neg hb, if_neg (by rintro ⟨c1, c2⟩; exact hb ⟨c1, by omega⟩)]
      rfl

theorem scan_none (d : Bytes) (n : Nat) (h : scanWords d false = .ok n none) : n = sk d ∧ ts (d.drop (sk d)) = none := by
  rw [scanWords_eq] at h
  cases hq : ts (d.drop (sk d)) with
  | some q => rw [hq] at h; cases h
  | none => rw [hq] at h; dsimp only at h; rw [if_neg (by simp)] at h; cases h; exact ⟨rfl, rfl⟩

theorem good_words : GoodS scanWords := by
  refine ⟨?_, ?_, ?_, ?_⟩
  · intro d n t hd h
    obtain ⟨k1, k2, k3⟩ := sk_append [] d
    cases t with
    | none =>
      obtain ⟨rfl, _⟩ := scan_none d n h
      exact Or.inl ⟨rfl, k1, fun x b => scan_later d x b⟩
    | some t =>
      right
      rw [scanWords_eq] at h
      cases hq : ts (d.drop (sk d)) with
      | none => rw [hq] at h; dsimp only at h; rw [if_neg (by simp)] at h; cases h
      | some q =>
        rw [hq] at h
        cases h
        obtain ⟨j1, j2, _⟩ := ts_append [] _ q.1 q.2 hq
        have hi := ts_pos _ k3 q.1 q.2 hq
        rw [List.length_drop] at j1
        refine ⟨_, rfl, by omega, by omega, fun x b => ?_⟩
        have hfull : fullRune (d.drop (sk d)) = true := by
          by_cases hf : fullRune (d.drop (sk d)) = true
          · exact hf
          · rw [(not_full _ (by simpa using hf)).2] at hq; cases hq
        rw [scan_later, scanWords_eq, sk_zero_append x _ k3 hfull, List.drop_zero, (ts_append x _ q.1 q.2 hq).2.2]
        simp only [later]
        rw [List.take_append_of_le_length (by rw [List.length_drop]; omega)]
        congr 1
        omega
  · intro d b _
    rw [scanWords_eq]
    cases ts (d.drop (sk d)) with
    | some q => exact ⟨_, _, rfl⟩
    | none =>
      dsimp only
      split
      · exact ⟨_, _, rfl⟩
      · exact ⟨_, _, rfl⟩
  · intro d n t h
    obtain ⟨k1, k2, k3⟩ := sk_append [] d
    rw [scanWords_eq] at h
    cases hq : ts (d.drop (sk d)) with
    | some q =>
      rw [hq] at h
      cases h
      obtain ⟨j1, j2, _⟩ := ts_append [] _ q.1 q.2 hq
      rw [List.length_drop] at j1
      omega
    | none =>
      rw [hq] at h
      dsimp only at h
      split at h
      · cases h; omega
      · cases h
  · intro d n h
    obtain ⟨k1, k2, k3⟩ := sk_append [] d
    rw [scanWords_eq] at h
    cases hq : ts (d.drop (sk d)) with
    | some q => rw [hq] at h; cases h
    | none =>
      rw [hq] at h
      dsimp only at h
      split at h
      · cases h
      · cases h; exact k1

/-- All words from here on leave room for one more rune in a buffer of `l` bytes. -/
def Narrow (l : Nat) (R : Bytes) : Prop := ∀ m, ∀ w ∈ tokens scanWords m R, w.length + 4 ≤ l

theorem room_words (l : Nat) (hl : 4 ≤ l) : Room scanWords l (Narrow l) := by
  refine ⟨?_, ?_⟩
  · intro d n x hP hd h
    obtain ⟨rfl, _⟩ := scan_none d n h
    have k1 := (sk_append [] d).1
    intro m w hw
    refine hP m w ?_
    cases m with
    | zero => cases hw
    | succ m =>
      simp only [tokens] at hw ⊢
      rw [scan_later]
      rw [List.drop_append_of_le_length k1] at hw
      cases hq : scanWords (d.drop (sk d) ++ x) true with
      | ok a t =>
        rw [hq] at hw
        cases t with
        | none => cases hw
        | some t =>
          simp only [later] at hw ⊢
          rw [← List.drop_drop, List.drop_append_of_le_length k1]
          exact hw
      | final t => rw [hq] at hw; cases hw
      | fail t => rw [hq] at hw; cases hw
  · intro R hP hlen h
    obtain ⟨h0, h1⟩ := scan_none _ _ h
    have hlt : (R.take l).length = l := by rw [List.length_take]; omega
    have hf := ReadRune.fullRune_long (R.take l) (by omega)
    have hsk : sk R = 0 := by
      have := sk_zero_append (R.drop l) (R.take l) h0.symm hf
      rwa [List.take_append_drop] at this
    rw [← h0, List.drop_zero] at h1
    cases hq : ts R with
    | some q =>
      have hbound := (ts_append [] _ q.1 q.2 hq).1
      have hin : R.take q.1 ∈ tokens scanWords 1 R := by
        simp only [tokens]
        rw [scanWords_eq, hsk, List.drop_zero, hq]
        simp
      have hs := hP 1 _ hin
      rw [List.length_take] at hs
      have hw := ts_width _ _ _ hq
      have := ts_prefix (R.drop l) (R.take l) q.1 q.2 (by rw [List.take_append_drop]; exact hq) (by omega)
      rw [h1] at this
      cases this
    | none =>
      have hin : R ∈ tokens scanWords 1 R := by
        simp only [tokens]
        rw [scanWords_eq, hsk, List.drop_zero, hq]
        dsimp only
        rw [if_pos ⟨rfl, by omega⟩]
        simp
      have := hP 1 _ hin
      omega

/-! ## The tokens are the words -/

theorem words_rest (d : Bytes) : ∀ cur, ts d = none → Words cur d (if cur ++ d = [] then [] else [cur ++ d]) := by
  refine chunk_ind (fun d => ∀ cur, ts d = none → Words cur d (if cur ++ d = [] then [] else [cur ++ d])) ?_ ?_ d
  · intro cur _
    rw [List.append_nil]
    by_cases h : cur = []
    · subst h; exact .nil
    · rw [if_neg h]; exact .last cur h
  · intro d hd ih cur h
    have hw := Runes.decode_width d hd
    rw [ts_eq d hd] at h
    by_cases hs : isSpace (decode d).1 = true
    · rw [if_pos hs] at h; cases h
    · rw [if_neg hs] at h
      have hn : ts (d.drop (decode d).2) = none := by
        cases hq : ts (d.drop (decode d).2) with
        | none => rfl
        | some q => rw [hq] at h; cases h
      rw [if_neg (by simp [hd])]
      have key : ∀ c : Bytes, c ≠ [] → c ++ d.drop c.length = d → c.length = (decode d).2 →
          Words (cur ++ c) (d.drop c.length) [cur ++ d] := by
        intro c hc h1 h2
        have := ih (cur ++ c) hn
        rw [← h2] at this
        rw [if_neg (by simp [hc]), List.append_assoc, h1] at this
        exact this
      rcases ReadRune.decode_cases d hd with ⟨k1, k2⟩ | ⟨k1, k2⟩
      · have hlen : (enc (decode d).1).length = (decode d).2 := by rw [k2, List.length_take]; omega
        have e : d = enc (decode d).1 ++ d.drop (decode d).2 := by rw [k2, List.take_append_drop]
        have := Words.rune cur _ _ _ k1 (fun hsp => hs ((isSpace_iff _).2 hsp))
          (key (enc (decode d).1) (by intro h0; rw [h0] at hlen; simp at hlen; omega) (by rw [hlen]; exact e.symm) hlen)
        rw [hlen, ← e] at this
        exact this
      · cases d with
        | nil => exact absurd rfl hd
        | cons b t =>
          exact .bad cur b t _ (fun r x hr => k2 r x hr) (key [b] (by simp) rfl (by rw [k1]; rfl))

theorem words_token (ws : List Bytes) (d : Bytes) : ∀ cur i w, ts d = some (i, w) → cur ++ d.take i ≠ [] →
    Words [] (d.drop (i + w)) ws → Words cur d ((cur ++ d.take i) :: ws) := by
  refine chunk_ind (fun d => ∀ cur i w, ts d = some (i, w) → cur ++ d.take i ≠ [] →
    Words [] (d.drop (i + w)) ws → Words cur d ((cur ++ d.take i) :: ws)) ?_ ?_ d
  · intro cur i w h; cases h
  · intro d hd ih cur i w h hne hrest
    have hw := Runes.decode_width d hd
    rw [ts_eq d hd] at h
    by_cases hs : isSpace (decode d).1 = true
    · rw [if_pos hs] at h
      obtain ⟨rfl, rfl⟩ := Prod.mk.inj (Option.some.inj h)
      rw [List.take_zero, List.append_nil] at hne ⊢
      rw [Nat.zero_add] at hrest
      rcases ReadRune.decode_cases d hd with ⟨k1, k2⟩ | ⟨k1, k2⟩
      · have := Words.word cur _ _ ws hne k1 ((isSpace_iff _).1 hs) hrest
        rw [k2, List.take_append_drop] at this
        exact this
      · rw [k1] at hs; exact absurd hs (by decide)
    · rw [if_neg hs] at h
      cases hq : ts (d.drop (decode d).2) with
      | none => rw [hq] at h; cases h
      | some q =>
        rw [hq] at h
        obtain ⟨rfl, rfl⟩ := Prod.mk.inj (Option.some.inj h)
        have key : ∀ c : Bytes, c ≠ [] → c ++ d.drop c.length = d → c.length = (decode d).2 →
            Words (cur ++ c) (d.drop c.length) ((cur ++ d.take ((decode d).2 + q.1)) :: ws) := by
          intro c hc h1 h2
          have e1 : d.take ((decode d).2 + q.1) = c ++ (d.drop (decode d).2).take q.1 := by
            rw [← h2]
            generalize d.drop c.length = y at h1
            rw [← h1, List.take_length_add_append]
          rw [h2, e1, ← List.append_assoc]
          exact ih (cur ++ c) q.1 q.2 hq (by simp [hc]) (by rw [List.drop_drop, ← Nat.add_assoc]; exact hrest)
        rcases ReadRune.decode_cases d hd with ⟨k1, k2⟩ | ⟨k1, k2⟩
        · have hlen : (enc (decode d).1).length = (decode d).2 := by rw [k2, List.length_take]; omega
          have e : d = enc (decode d).1 ++ d.drop (decode d).2 := by rw [k2, List.take_append_drop]
          have := Words.rune cur _ _ _ k1 (fun hsp => hs ((isSpace_iff _).2 hsp))
            (key (enc (decode d).1) (by intro h0; rw [h0] at hlen; simp at hlen; omega) (by rw [hlen]; exact e.symm) hlen)
          rw [hlen, ← e] at this
          exact this
        · cases d with
          | nil => exact absurd rfl hd
          | cons b t =>
            exact .bad cur b t _ (fun r x hr => k2 r x hr) (key [b] (by simp) rfl (by rw [k1]; rfl))

theorem words_skip (ws : List Bytes) (d : Bytes) : Words [] (d.drop (sk d)) ws → Words [] d ws := by
  refine chunk_ind (fun d => Words [] (d.drop (sk d)) ws → Words [] d ws) ?_ ?_ d
  · intro h; exact h
  · intro d hd ih h
    rw [sk_eq d hd] at h
    by_cases hs : isSpace (decode d).1 = true
    · rw [if_pos hs, ← List.drop_drop] at h
      have h := ih h
      rcases ReadRune.decode_cases d hd with ⟨k1, k2⟩ | ⟨k1, k2⟩
      · have := Words.gap _ _ ws k1 ((isSpace_iff _).1 hs) h
        rw [k2, List.take_append_drop] at this
        exact this
      · rw [k1] at hs; exact absurd hs (by decide)
    · rw [if_neg hs] at h
      exact h

theorem tokens_words : ∀ (m : Nat) (R : Bytes), R.length < m → Words [] R (tokens scanWords m R) := by
  intro m
  induction m with
  | zero => intro R h; omega
  | succ m ih =>
    intro R hm
    obtain ⟨k1, k2, k3⟩ := sk_append [] R
    refine words_skip _ R ?_
    simp only [tokens]
    rw [scanWords_eq]
    cases hq : ts (R.drop (sk R)) with
    | some q =>
      dsimp only
      have hi := ts_pos _ k3 _ _ hq
      obtain ⟨j1, j2, _⟩ := ts_append [] _ q.1 q.2 hq
      rw [List.length_drop] at j1
      have := words_token (tokens scanWords m (R.drop (sk R + q.1 + q.2))) (R.drop (sk R)) [] q.1 q.2 hq
        (by
          intro h0
          have := congrArg List.length h0
          rw [List.nil_append, List.length_take, List.length_drop] at this
          simp at this
          omega)
        (by rw [List.drop_drop, ← Nat.add_assoc]; exact ih _ (by rw [List.length_drop]; omega))
      rwa [List.nil_append] at this
    | none =>
      have := words_rest (R.drop (sk R)) [] hq
      rw [List.nil_append] at this
      by_cases hlen : R.length > sk R
      · rw [if_pos ⟨rfl, hlen⟩]
        dsimp only
        have hne : ¬ R.drop (sk R) = [] := by
          intro h0; have := congrArg List.length h0; rw [List.length_drop] at this; simp at this; omega
        rw [if_neg hne] at this
        have ht : tokens scanWords m (R.drop R.length) = [] := by
          rw [List.drop_length]
          cases m with
          | zero => rfl
          | succ m => rfl
        rw [ht]
        exact this
      · rw [if_neg (by rintro ⟨_, h⟩; exact hlen h)]
        dsimp only
        have hnil : R.drop (sk R) = [] := List.drop_of_length_le (by omega)
        rw [if_pos hnil] at this
        exact this

/-- Further fuel gives no further tokens. -/
theorem tokens_more : ∀ (m k : Nat) (R : Bytes), R.length < m → ∀ w ∈ tokens scanWords k R, w ∈ tokens scanWords m R := by
  intro m
  induction m with
  | zero => intro k R h; omega
  | succ m ih =>
    intro k R hm w hw
    cases k with
    | zero => cases hw
    | succ k =>
      simp only [tokens] at hw ⊢
      obtain ⟨n, t, hsp⟩ := good_words.ok R true (Or.inr rfl)
      rw [hsp] at hw ⊢
      cases t with
      | none => cases hw
      | some t =>
        dsimp only at hw ⊢
        obtain ⟨p1, p2⟩ := good_words.eof _ _ _ hsp
        rcases List.mem_cons.1 hw with hw | hw
        · rw [hw]; exact List.mem_cons_self ..
        · exact List.mem_cons_of_mem _ (ih k _ (by rw [List.length_drop]; omega) w hw)

/-- A text has one list of words. -/
theorem words_unique (cur t : Bytes) (ws : List Bytes) (h : Words cur t ws) : ∀ ws', Words cur t ws' → ws' = ws := by
  have hone : ∀ r, 1 ≤ (enc r).length := by
    intro r
    unfold enc
    split
    · simp
    split
    · simp
    split <;> simp
  have nonil : ∀ (r : Nat) (rest : Bytes), enc r ++ rest ≠ [] := by
    intro r rest h
    have h1 := (List.append_eq_nil_iff.1 h).1
    have := hone r
    rw [h1] at this
    simp at this
  have same : ∀ (r r' : Nat) (rest rest' : Bytes), Scalar r → Scalar r' → enc r ++ rest = enc r' ++ rest' →
      r = r' ∧ rest = rest' := by
    intro r r' rest rest' h1 h2 he
    have e1 := Runes.decode_enc r h1 rest
    have e2 := Runes.decode_enc r' h2 rest'
    rw [he, e2] at e1
    have : r' = r := (Prod.mk.inj e1).1
    subst this
    exact ⟨rfl, List.append_cancel_left he⟩
  suffices H : ∀ c' t' ws', Words c' t' ws' → c' = cur → t' = t → ws' = ws from fun ws' h' => H _ _ _ h' rfl rfl
  induction h with
  | nil =>
    intro c' t' ws' h' hc he
    cases h' with
    | nil => rfl
    | last _ hn => exact absurd hc hn
    | gap r rest => exact absurd he (nonil r rest)
    | word _ r rest => exact absurd he (nonil r rest)
    | rune _ r rest => exact absurd he (nonil r rest)
    | bad _ => cases he
  | last cur hcur =>
    intro c' t' ws' h' hc he
    cases h' with
    | nil => exact absurd hc.symm hcur
    | last _ hn => rw [hc]
    | gap r rest => exact absurd he (nonil r rest)
    | word _ r rest => exact absurd he (nonil r rest)
    | rune _ r rest => exact absurd he (nonil r rest)
    | bad _ => cases he
  | gap r rest ws hr hsp _ ih =>
    intro c' t' ws' h' hc he
    cases h' with
    | nil => exact absurd he.symm (nonil r rest)
    | last _ hn => exact absurd hc hn
    | gap r' rest' _ hr' hsp' h'' =>
      obtain ⟨rfl, rfl⟩ := same _ _ _ _ hr' hr he
      exact ih _ _ _ h'' rfl rfl
    | word _ r' rest' _ hn => exact absurd hc hn
    | rune _ r' rest' _ hr' hsp' =>
      obtain ⟨rfl, rfl⟩ := same _ _ _ _ hr' hr he
      exact absurd hsp hsp'
    | bad _ b rest' _ hb => exact absurd he (hb r rest hr)
  | word cur r rest ws hcur hr hsp _ ih =>
    intro c' t' ws' h' hc he
    cases h' with
    | nil => exact absurd hc.symm hcur
    | last _ hn => exact absurd he.symm (nonil r rest)
    | gap r' rest' _ hr' hsp' h'' => exact absurd hc.symm hcur
    | word _ r' rest' _ hn hr' hsp' h'' =>
      obtain ⟨rfl, rfl⟩ := same _ _ _ _ hr' hr he
      rw [ih _ _ _ h'' rfl rfl, hc]
    | rune _ r' rest' _ hr' hsp' =>
      obtain ⟨rfl, rfl⟩ := same _ _ _ _ hr' hr he
      exact absurd hsp hsp'
    | bad _ b rest' _ hb => exact absurd he (hb r rest hr)
  | rune cur r rest ws hr hsp _ ih =>
    intro c' t' ws' h' hc he
    cases h' with
    | nil => exact absurd he.symm (nonil r rest)
    | last _ hn => exact absurd he.symm (nonil r rest)
    | gap r' rest' _ hr' hsp' h'' =>
      obtain ⟨rfl, rfl⟩ := same _ _ _ _ hr' hr he
      exact absurd hsp' hsp
    | word _ r' rest' _ hn hr' hsp' h'' =>
      obtain ⟨rfl, rfl⟩ := same _ _ _ _ hr' hr he
      exact absurd hsp' hsp
    | rune _ r' rest' _ hr' hsp' h'' =>
      obtain ⟨rfl, rfl⟩ := same _ _ _ _ hr' hr he
      exact ih _ _ _ h'' (by rw [hc]) rfl
    | bad _ b rest' _ hb => exact absurd he (hb r rest hr)
  | bad cur b rest ws hb _ ih =>
    intro c' t' ws' h' hc he
    cases h' with
    | nil => cases he
    | last _ hn => cases he
    | gap r' rest' _ hr' hsp' h'' => exact absurd he.symm (hb r' rest' hr')
    | word _ r' rest' _ hn hr' hsp' h'' => exact absurd he.symm (hb r' rest' hr')
    | rune _ r' rest' _ hr' hsp' h'' => exact absurd he.symm (hb r' rest' hr')
    | bad _ b' rest' _ hb' h'' =>
      obtain ⟨rfl, rfl⟩ := List.cons.inj he
      exact ih _ _ _ h'' (by rw [hc]) rfl

/-- **C145 (words).** With `Split(ScanWords)`, however the input is cut into reads (also inside a space character or a word):
the usual loop gets the words of the whole input, in order, and then stops; `Err` reports the reader's error. For words that
with one more rune fit into the largest buffer; stretches of spaces may be of any length. -/
theorem words_exact (cap max : Nat) (src : Script) (hl : Lively src) (hc : 4 ≤ cap ∨ 4 ≤ max) (ws : List Bytes)
    (hw : Words [] (stream src).1 ws) (hfit : ∀ w ∈ ws, w.length + 4 ≤ cap ∨ w.length + 4 ≤ max) :
    ∃ s', (∀ f, (stream src).1.length < f → scanAll scanWords f (new cap max src) = some (ws.map some, s')) ∧
      errOf s' = (if (stream src).2 = .eof then none else some (.io (stream src).2)) := by
  have hlim : lim (new cap max src) = if cap ≤ max then max else cap := rfl
  generalize hL : (if cap ≤ max then max else cap) = L at hlim
  have hL4 : 4 ≤ L := by rw [← hL]; split <;> omega
  have htok := tokens_words ((stream src).1.length + 1) (stream src).1 (by omega)
  have hws : tokens scanWords ((stream src).1.length + 1) (stream src).1 = ws := words_unique _ _ _ hw _ htok
  have hP : Narrow L (stream src).1 := by
    intro m w hm
    have hin := tokens_more ((stream src).1.length + 1) m _ (by omega) w hm
    rw [hws] at hin
    have := hfit w hin
    rw [← hL]
    split <;> omega
  obtain ⟨s', h1, h2, h3, h4⟩ := scanAll_words scanWords good_words L (Narrow L) (room_words L hL4)
    (fun R n t hP h m w hm => hP (m + 1) w (by simp only [tokens]; rw [h]; exact List.mem_cons_of_mem _ hm))
    (stream src).2 ((stream src).1.length + 1) (new cap max src) (stream src).1 (by omega) (rem_new cap max src hl) (by omega)
    hlim hP
  refine ⟨s', fun f hf => by rw [h1 f hf, hws], ?_⟩
  unfold errOf
  rw [h2]
  by_cases he : (stream src).2 = .eof
  · simp [he]
  · rw [if_neg (by simpa using he), if_neg he]

/-- Every text has its words (so `words_exact` applies to every text with short enough words). -/
theorem words_exist (t : Bytes) : ∃ ws, Words [] t ws := ⟨_, tokens_words (t.length + 1) t (by omega)⟩

/-- "  a\\u2003bc" with the space character cut, in a buffer of 8 bytes; a broken-off rune belongs to the last word. -/
theorem words_example :
    (scanAll scanWords 20 (new 0 8 [([32, 32, 97, 0xE2], none), ([0x80], none), ([0x83, 98, 99], none),
        ([32, 32, 32, 32, 32, 32, 32, 32, 32, 32, 32, 100, 0xE2, 0x80], some .eof)])).map (·.1) =
      some [some [97], some [98, 99], some [100, 0xE2, 0x80]] := by decide +kernel

/-- Spaces and words in one read. -/
theorem words_example2 :
    (scanAll scanWords 20 (new 8 8 [([32, 9, 97, 98, 0xC2, 0xA0, 99, 13, 10], some .eof)])).map (·.1) =
      some [some [97, 98], some [99]] := by decide +kernel

end Verif.Bufio.Words
