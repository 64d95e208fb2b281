import Verif.Util.RotateLogs
/-!
# C41: the connection lists of the web UI

Model of libcs/web/server/util/net.go:11-62, used by libcs/server/web/service/service.go:174-187 and
libcs/client/web/service/service.go:188. Status and family of a connection are irrelevant and kept abstract in `info`.
-/
set_option linter.unusedSimpArgs false
set_option linter.unusedVariables false
namespace Verif.Web.ConnFilter
open Verif Verif.Util.RotateLogs

/-- An address: the text of the IP, whether it is an IPv6 text, and the port. -/
structure Addr where
  ip : Bytes
  v6 : Bool
  port : Nat
deriving DecidableEq, Repr

/-- `(*net.TCPAddr).String()`: `net.JoinHostPort`, with brackets around an IPv6 text. -/
def goString (a : Addr) : Bytes :=
  (if a.v6 then 91 :: a.ip ++ [93] else a.ip) ++ 58 :: dec a.port

/-- net.go:11-13 `ConvertToNetAddrString` for an address reported by the operating system. -/
def osString (a : Addr) : Bytes := a.ip ++ 58 :: dec a.port

/-- gopsutil `ConnectionStat`. -/
structure Conn where
  laddr : Addr
  raddr : Addr
  info : Nat := 0
deriving DecidableEq, Repr

/-- client.PoolInfo / server.ConnectionInfo. -/
structure Tun where
  id : Bytes
  laddr : Addr
  raddr : Addr
deriving DecidableEq, Repr

def tunKey (t : Tun) : Bytes := goString t.laddr ++ 45 :: goString t.raddr
def connKey (c : Conn) : Bytes := osString c.laddr ++ 45 :: osString c.raddr

/-- net.go:17-34 `FilterOutMatchingConnections`. -/
def filterOut (source : List Conn) (tuns : List Tun) : List Conn :=
  let keys := tuns.map tunKey
  source.filter (fun c => !keys.contains (connKey c))

/-- net.go:43-47: the map from key to id; a later entry with the same key replaces an earlier one. -/
def idOf (tuns : List Tun) (key : Bytes) : Option Bytes :=
  tuns.foldl (fun acc t => if tunKey t == key then some t.id else acc) none

/-- net.go:38-57 `SelectedMatchingConnections`: the list stored under `id`. -/
def selected (source : List Conn) (tuns : List Tun) (id : Bytes) : List Conn :=
  source.filter (fun c => idOf tuns (connKey c) == some id)

/-- net.go:79-95 `SimplifyConnectionsWithID`: the groups in the order `ids` of the iteration over the map, which
is any order of the ids that occur. -/
def withIds (source : List Conn) (tuns : List Tun) (ids : List Bytes) : List (Bytes × Conn) :=
  ids.flatMap (fun id => (selected source tuns id).map (fun c => (id, c)))

/-! ## Specification -/

/-- The connection of the operating system is the tunnel. -/
def Same (c : Conn) (t : Tun) : Prop := c.laddr = t.laddr ∧ c.raddr = t.raddr

/-- A well-formed IPv4 address: digits and dots. -/
def V4 (a : Addr) : Prop := a.v6 = false ∧ ∀ b ∈ a.ip, b = 46 ∨ (48 ≤ b.toNat ∧ b.toNat ≤ 57)

/-- An IPv6 text: hexadecimal digits, colons, dots, a zone — but no brackets. -/
def V6 (a : Addr) : Prop := a.v6 = true ∧ ∀ b ∈ a.ip, b ≠ 91 ∧ b ≠ 93

/-! ## Lemmas -/

theorem decF_digits : ∀ (f n : Nat), ∀ b ∈ decF f n, 48 ≤ b.toNat ∧ b.toNat ≤ 57 := by
  intro f
  induction f with
  | zero => intro n b hb; cases hb
  | succ f ih =>
    intro n b hb
    unfold decF at hb
    have hd := digit_toNat n
    by_cases h : n < 10
    · rw [if_pos h] at hb
      simp only [List.mem_singleton] at hb
      subst hb; omega
    · rw [if_neg h] at hb
      rcases List.mem_append.1 hb with h' | h'
      · exact ih _ b h'
      · simp only [List.mem_singleton] at h'
        subst h'; omega

theorem dec_inj {a b : Nat} (h : dec a = dec b) : a = b := by
  rw [← valOf_dec a, ← valOf_dec b, h]

/-- Cutting at the first occurrence of a separator is unambiguous. -/
theorem sep_inj {s : UInt8} {a b x y : Bytes} (ha : s ∉ a) (hb : s ∉ b) (h : a ++ s :: x = b ++ s :: y) : a = b ∧ x = y := by
  induction a generalizing b with
  | nil =>
    cases b with
    | nil => simp at h; exact ⟨rfl, h⟩
    | cons b0 b' => simp at h; exact absurd (by simp [h.1]) hb
  | cons a0 a' ih =>
    cases b with
    | nil => simp at h; exact absurd (by simp [h.1]) ha
    | cons b0 b' =>
      simp only [List.cons_append, List.cons.injEq] at h
      obtain ⟨h1, h2⟩ := ih (fun hm => ha (List.mem_cons_of_mem _ hm)) (fun hm => hb (List.mem_cons_of_mem _ hm)) h.2
      exact ⟨by rw [h.1, h1], h2⟩

theorem v4_no {a : Addr} (h : V4 a) (s : UInt8) (hs : s = 58 ∨ s = 45) : s ∉ a.ip := by
  intro hm
  rcases h.2 s hm with e | e
  · subst e; simp at hs
  · rcases hs with e' | e' <;> subst e' <;> simp at e

theorem dec_no {n : Nat} (s : UInt8) (hs : s = 58 ∨ s = 45 ∨ s = 91) : s ∉ dec n := by
  intro hm
  have := decF_digits _ _ s hm
  rcases hs with e | e | e <;> subst e <;> simp at this

theorem os_inj {a b : Addr} (ha : V4 a) (hb : V4 b) (h : osString a = osString b) : a = b := by
  obtain ⟨h1, h2⟩ := sep_inj (v4_no ha 58 (Or.inl rfl)) (v4_no hb 58 (Or.inl rfl)) h
  obtain ⟨ia, va, pa⟩ := a
  obtain ⟨ib, vb, pb⟩ := b
  have := ha.1; have := hb.1
  dsimp only at *
  subst_vars
  rw [dec_inj h2]

theorem os_no_dash {a : Addr} (ha : V4 a) : (45 : UInt8) ∉ osString a := by
  unfold osString
  simp only [List.mem_append, List.mem_cons, not_or]
  exact ⟨v4_no ha 45 (Or.inr rfl), by decide, dec_no 45 (Or.inr (Or.inl rfl))⟩

theorem go_os {a : Addr} (ha : V4 a) : goString a = osString a := by
  unfold goString osString
  simp [ha.1]

/-- For IPv4 the textual key identifies the connection. -/
theorem key_iff {c : Conn} {t : Tun} (hc : V4 c.laddr ∧ V4 c.raddr) (ht : V4 t.laddr ∧ V4 t.raddr) :
    connKey c = tunKey t ↔ Same c t := by
  unfold connKey tunKey
  rw [go_os ht.1, go_os ht.2]
  constructor
  · intro h
    obtain ⟨h1, h2⟩ := sep_inj (os_no_dash hc.1) (os_no_dash ht.1) h
    exact ⟨os_inj hc.1 ht.1 h1, os_inj hc.2 ht.2 h2⟩
  · rintro ⟨h1, h2⟩; rw [h1, h2]

theorem idOf_some {tuns : List Tun} {key : Bytes} :
    (∀ id, idOf tuns key = some id → ∃ t ∈ tuns, tunKey t = key ∧ t.id = id) ∧
    ((∃ t ∈ tuns, tunKey t = key) → (idOf tuns key).isSome = true) := by
  unfold idOf
  suffices h : ∀ acc, (∀ id, tuns.foldl (fun acc t => if tunKey t == key then some t.id else acc) acc = some id →
      (∃ t ∈ tuns, tunKey t = key ∧ t.id = id) ∨ acc = some id) ∧
      (((∃ t ∈ tuns, tunKey t = key) ∨ acc.isSome = true) →
        (tuns.foldl (fun acc t => if tunKey t == key then some t.id else acc) acc).isSome = true) by
    obtain ⟨h1, h2⟩ := h none
    refine ⟨fun id hid => ?_, fun he => h2 (Or.inl he)⟩
    rcases h1 id hid with h | h
    · exact h
    · cases h
  intro acc
  induction tuns generalizing acc with
  | nil =>
    refine ⟨fun id h => Or.inr h, ?_⟩
    rintro (⟨t, ht, -⟩ | h)
    · cases ht
    · exact h
  | cons t ts ih =>
    rw [List.foldl_cons]
    by_cases hk : tunKey t = key
    · have hb : (tunKey t == key) = true := by simpa using hk
      rw [hb]
      simp only [if_true]
      obtain ⟨h1, h2⟩ := ih (some t.id)
      refine ⟨?_, fun _ => h2 (Or.inr rfl)⟩
      intro id hid
      rcases h1 id hid with ⟨t', ht', h⟩ | h
      · exact Or.inl ⟨t', List.mem_cons_of_mem _ ht', h⟩
      · exact Or.inl ⟨t, List.mem_cons_self, hk, Option.some.inj h⟩
    · have hb : (tunKey t == key) = false := by simpa using hk
      rw [hb]
      simp only [Bool.false_eq_true, if_false]
      obtain ⟨h1, h2⟩ := ih acc
      refine ⟨?_, ?_⟩
      · intro id hid
        rcases h1 id hid with ⟨t', ht', h⟩ | h
        · exact Or.inl ⟨t', List.mem_cons_of_mem _ ht', h⟩
        · exact Or.inr h
      · rintro (⟨t', ht', h⟩ | h)
        · cases ht' with
          | head => exact absurd h hk
          | tail _ ht' => exact h2 (Or.inl ⟨t', ht', h⟩)
        · exact h2 (Or.inr h)

/-- All addresses are IPv4. -/
def AllV4 (source : List Conn) (tuns : List Tun) : Prop :=
  (∀ c ∈ source, V4 c.laddr ∧ V4 c.raddr) ∧ (∀ t ∈ tuns, V4 t.laddr ∧ V4 t.raddr)

/-! ## Theorems -/

/-- C41, IPv4: the external list is, in order, exactly the connections that are no tunnel. (`p` is any decision of
"is one of the tunnels".) -/
theorem external_exact_partial (source : List Conn) (tuns : List Tun) (h : AllV4 source tuns) (p : Conn → Bool)
    (hp : ∀ c, p c = true ↔ ∃ t ∈ tuns, Same c t) : filterOut source tuns = source.filter (fun c => !p c) := by
  unfold filterOut
  dsimp only
  apply List.filter_congr
  intro c hc
  congr 1
  rw [Bool.eq_iff_iff, hp, List.contains_iff_mem]
  constructor
  · intro hm
    obtain ⟨t, ht, e⟩ := List.mem_map.1 hm
    exact ⟨t, ht, (key_iff (h.1 c hc) (h.2 t ht)).1 e.symm⟩
  · rintro ⟨t, ht, hs⟩
    exact List.mem_map.2 ⟨t, ht, ((key_iff (h.1 c hc) (h.2 t ht)).2 hs).symm⟩

/-- C41, IPv4: under an id the UI lists only connections of tunnels of that id, in order. -/
theorem selected_sound_partial (source : List Conn) (tuns : List Tun) (h : AllV4 source tuns) (id : Bytes) :
    (selected source tuns id).Sublist source ∧
    ∀ c ∈ selected source tuns id, ∃ t ∈ tuns, t.id = id ∧ Same c t := by
  refine ⟨List.filter_sublist, ?_⟩
  intro c hc
  obtain ⟨h1, h2⟩ := List.mem_filter.1 hc
  simp only [beq_iff_eq] at h2
  obtain ⟨t, ht, e, hid⟩ := idOf_some.1 id h2
  exact ⟨t, ht, hid, (key_iff (h.1 c h1) (h.2 t ht)).1 e.symm⟩

/-- C41: whatever the addresses, each connection is listed exactly once: either among the external ones, or under
exactly one id. -/
theorem lists_partition (source : List Conn) (tuns : List Tun) (c : Conn) (hc : c ∈ source) :
    (c ∈ filterOut source tuns ∧ ∀ id, c ∉ selected source tuns id) ∨
    (c ∉ filterOut source tuns ∧ ∃ id, c ∈ selected source tuns id ∧ ∀ id', c ∈ selected source tuns id' → id' = id) := by
  by_cases hk : connKey c ∈ tuns.map tunKey
  · right
    refine ⟨?_, ?_⟩
    · intro hm
      obtain ⟨-, h2⟩ := List.mem_filter.1 hm
      have : (tuns.map tunKey).contains (connKey c) = true := List.contains_iff_mem.2 hk
      rw [this] at h2
      cases h2
    · obtain ⟨t, ht, e⟩ := List.mem_map.1 hk
      obtain ⟨id, hid⟩ := Option.isSome_iff_exists.1 (idOf_some.2 ⟨t, ht, e⟩)
      refine ⟨id, List.mem_filter.2 ⟨hc, by simp [hid]⟩, ?_⟩
      intro id' h'
      have := (List.mem_filter.1 h').2
      simp only [beq_iff_eq] at this
      rw [hid] at this
      exact (Option.some.inj this).symm
  · left
    refine ⟨List.mem_filter.2 ⟨hc, ?_⟩, ?_⟩
    · have : (tuns.map tunKey).contains (connKey c) = false := by
        rw [← Bool.not_eq_true, List.contains_iff_mem]; exact hk
      rw [this]; rfl
    · intro id hm
      have := (List.mem_filter.1 hm).2
      simp only [beq_iff_eq] at this
      obtain ⟨t, ht, e, -⟩ := idOf_some.1 id this
      exact hk (List.mem_map.2 ⟨t, ht, e⟩)

/-- C41 is false for IPv6: Go writes the address of a tunnel with brackets and the keys of the connections have
none, so a tunnel over IPv6 is always listed as an external connection and never under its id. -/
theorem ipv6_tunnel_listed_external (source : List Conn) (tuns : List Tun) (c : Conn) (hc : c ∈ source)
    (h6 : V6 c.laddr) (h6' : V6 c.raddr) (ht : ∀ t ∈ tuns, t.laddr.v6 = true) :
    c ∈ filterOut source tuns ∧ ∀ id, c ∉ selected source tuns id := by
  rcases lists_partition source tuns c hc with h | ⟨-, id, h, -⟩
  · exact h
  · exfalso
    have := (List.mem_filter.1 h).2
    simp only [beq_iff_eq] at this
    obtain ⟨t, htm, e, -⟩ := idOf_some.1 id this
    have hv := ht t htm
    have hin : (91 : UInt8) ∈ connKey c := by
      rw [← e]; unfold tunKey goString; simp [hv]
    unfold connKey osString at hin
    simp only [List.mem_append, List.mem_cons] at hin
    rcases hin with (h | h | h) | h | h | h | h
    · exact (h6.2 _ h).1 rfl
    · cases h
    · exact dec_no 91 (Or.inr (Or.inr rfl)) h
    · cases h
    · exact (h6'.2 _ h).1 rfl
    · cases h
    · exact dec_no 91 (Or.inr (Or.inr rfl)) h

/-- Nonvacuity: one tunnel and one other connection, IPv4. -/
example : let a : Addr := ⟨ascii "10.0.0.1", false, 443⟩
    let b : Addr := ⟨ascii "10.0.0.2", false, 5000⟩
    let t : Tun := ⟨ascii "x", a, b⟩
    filterOut [⟨a, b, 0⟩, ⟨b, a, 1⟩] [t] = [⟨b, a, 1⟩] ∧ selected [⟨a, b, 0⟩, ⟨b, a, 1⟩] [t] (ascii "x") = [⟨a, b, 0⟩] ∧
    AllV4 [⟨a, b, 0⟩, ⟨b, a, 1⟩] [t] := by
  refine ⟨by decide +kernel, by decide +kernel, ?_, ?_⟩
  · intro c hc
    simp only [List.mem_cons, List.not_mem_nil, or_false] at hc
    rcases hc with h | h <;> subst h <;> refine ⟨⟨rfl, by decide⟩, ⟨rfl, by decide⟩⟩
  · intro c hc
    simp only [List.mem_cons, List.not_mem_nil, or_false] at hc
    subst hc
    exact ⟨⟨rfl, by decide⟩, ⟨rfl, by decide⟩⟩

/-- The IPv6 defect on a concrete tunnel: `::1`. -/
example : let a : Addr := ⟨ascii "::1", true, 443⟩
    filterOut [⟨a, a, 0⟩] [⟨ascii "x", a, a⟩] = [⟨a, a, 0⟩] := by decide +kernel

end Verif.Web.ConnFilter
