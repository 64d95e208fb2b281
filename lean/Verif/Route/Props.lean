import Verif.Route.Peek
import Verif.Route.TlsLemmas
set_option linter.unusedSimpArgs false
/-!
# Property theorems: HTTP and TLS routing (C05, C06, C07)

The reader's buffer has `pool.MaxBufferSize` = 4096 bytes; the theorems need at least 2049.
-/
namespace Verif.Route
open Verif Verif.Bufio

/-- **C05** (soundness, for every stream, segmentation and failure schedule): looking for a header
returns, consumes nothing — the stream seen afterwards is the stream seen before — and what it reports
is true of the request: the value is the trimmed rest of the *first* line starting with the header
name, before the end of the header block, and has 1..512 bytes; "no host" means that the header block
ended first; "invalid protocol" means that nothing was decided within 2049 bytes. -/
theorem header_search (trim : Bytes → Bytes) (target : Bytes) (s : Rd) (hcap : 2049 ≤ s.cap)
    (hfit : s.r + s.data.length ≤ s.cap) :
    ∃ res s', peekHeader trim target s = some (res, s') ∧
      s'.data ++ bytesOf s'.src = s.data ++ bytesOf s.src ∧
      match res with
      | .ok v => ∃ x len, FirstHeader target (s.data ++ bytesOf s.src) x len ∧ v = trim x ∧ 1 ≤ v.length ∧ v.length ≤ 512
      | .error .invalidLength => ∃ x len, FirstHeader target (s.data ++ bytesOf s.src) x len ∧
          ¬ (1 ≤ (trim x).length ∧ (trim x).length ≤ 512)
      | .error .noHost => ∃ len, HeadersEndFirst target (s.data ++ bytesOf s.src) len
      | .error .invalidProto =>
          (∀ x len, FirstHeader target (s.data ++ bytesOf s.src) x len → 2049 < len) ∧
          (∀ len, HeadersEndFirst target (s.data ++ bytesOf s.src) len → 2049 < len)
      | .error (.read _) => True := by
  obtain ⟨res, s', h1, h2, _, _, h3, _⟩ := peekHeader_spec trim target s ⟨by omega, hfit⟩ hcap
  refine ⟨res, s', h1, h2, ?_⟩
  cases res with
  | ok v => exact h3
  | error e => cases e <;> first | exact h3 | trivial

/-- **C05** (completeness): if the connection neither fails nor ends, and the first line named
`target` ends within the first 2049 bytes with a value of 1..512 bytes, that value is found —
whatever the segmentation. -/
theorem header_found (trim : Bytes → Bytes) (target : Bytes) (s : Rd) (hcap : 2049 ≤ s.cap)
    (hfit : s.r + s.data.length ≤ s.cap) (hcl : Clean s.src) (he : s.err = none) (x : Bytes) (len : Nat)
    (hx : FirstHeader target (s.data ++ bytesOf s.src) x len) (hlen : len ≤ 2049)
    (hv : 1 ≤ (trim x).length ∧ (trim x).length ≤ 512) :
    ∃ s', peekHeader trim target s = some (.ok (trim x), s') := by
  obtain ⟨res, s', h1, h2, _, _, h3, h4⟩ := peekHeader_spec trim target s ⟨by omega, hfit⟩ hcap
  refine ⟨s', ?_⟩
  rw [h1]
  have hS : stream s = s.data ++ bytesOf s.src := rfl
  rw [← hS] at hx
  cases res with
  | ok v =>
    obtain ⟨y, m, g1, g2, _⟩ := h3
    rw [g2, (firstHeader_unique hx g1).1]
  | error e =>
    exfalso
    cases e with
    | invalidLength =>
      obtain ⟨y, m, g1, g2⟩ := h3
      rw [← (firstHeader_unique hx g1).1] at g2
      exact g2 hv
    | noHost => obtain ⟨m, g1⟩ := h3; exact firstHeader_not_end hx g1
    | invalidProto => have := h3.1 x len hx; omega
    | read e =>
      have := ((h4 hcl he).2 e rfl).1 x len hx
      obtain ⟨pre, rest, g1, _, rfl⟩ := hx
      have := congrArg List.length g1.1
      simp at this
      simp at *
      omega

/-- **C05** (completeness of rejection): if the header block ends (within 2049 bytes) without such a
line, the request is rejected as having no host — whatever the segmentation. -/
theorem header_absent (trim : Bytes → Bytes) (target : Bytes) (s : Rd) (hcap : 2049 ≤ s.cap)
    (hfit : s.r + s.data.length ≤ s.cap) (hcl : Clean s.src) (he : s.err = none) (len : Nat)
    (hx : HeadersEndFirst target (s.data ++ bytesOf s.src) len) (hlen : len ≤ 2049) :
    ∃ s', peekHeader trim target s = some (.error .noHost, s') := by
  obtain ⟨res, s', h1, h2, _, _, h3, h4⟩ := peekHeader_spec trim target s ⟨by omega, hfit⟩ hcap
  refine ⟨s', ?_⟩
  rw [h1]
  have hS : stream s = s.data ++ bytesOf s.src := rfl
  rw [← hS] at hx
  cases res with
  | ok v => obtain ⟨y, m, g1, g2⟩ := h3; exact absurd hx (fun h => firstHeader_not_end g1 h)
  | error e =>
    cases e with
    | invalidLength => obtain ⟨y, m, g1, g2⟩ := h3; exact absurd hx (fun h => firstHeader_not_end g1 h)
    | noHost => rfl
    | invalidProto => have := h3.2 len hx; omega
    | read e =>
      exfalso
      have := ((h4 hcl he).2 e rfl).2 len hx
      obtain ⟨pre, line, rest, g1, _, _, _, rfl⟩ := hx
      have := congrArg List.length g1.1
      simp at this
      simp at *
      omega

/-- Non-vacuity: a request in three segments cut inside the header name and inside the value. -/
example : FirstHeader hostTarget (ascii "GET / HTTP/1.1\r\nHost: a.b.c\r\n\r\n") (ascii "a.b.c\r") 29 := by
  refine ⟨ascii "GET / HTTP/1.1\r\n", ascii "\r\n", ⟨by decide +kernel, by decide +kernel, Or.inr (by decide +kernel)⟩, ⟨?_, ?_⟩, by decide +kernel⟩
  · intro a l r h
    rcases lineAt_snoc (pre := []) (cur := ascii "GET / HTTP/1.1\r") (by decide +kernel) (Or.inl rfl) h with ⟨rfl, rfl⟩ | ⟨r', h'⟩
    · decide +kernel
    · simp [LineAt] at h'
  · decide +kernel
example : (peekHeader trimAscii hostTarget (Rd.new 4096
    [(ascii "GET / HTTP/1.1\r\nHo", none), (ascii "st: a.", none), (ascii "b.c\r\n\r\n", none)])).map (·.1) =
    some (.ok (ascii "a.b.c")) := by decide +kernel

/-- The first segment `c` decides when it can. -/
theorem peekHeader_first (trim : Bytes → Bytes) (target c : Bytes) (rest : Script) (hc : c ≠ []) (hl : c.length ≤ 4096) :
    (peekHeader trim target (Rd.new 4096 ((c, none) :: rest))).map (·.1) =
      match scanLoop trim target c c 0 0 with
      | .found v => some (.ok v)
      | .bad => some (.error .invalidLength)
      | .endOfHeaders => some (.error .noHost)
      | .more => if c.length > 2048 then some (.error .invalidProto) else
          (peekHeader trim target (Rd.new 4096 ((c, none) :: rest))).map (·.1) := by
  have hpos : 0 < c.length := List.length_pos_iff.mpr hc
  have hf : fill ⟨4096, 0, [], none, none, (c, none) :: rest⟩ = some ⟨4096, 0, c, none, none, rest⟩ := by
    simp only [fill]
    rw [if_neg (by simp)]
    congr 1
    unfold fillLoop
    simp only [srcRead]
    rw [if_pos (by simpa using hl)]
    simp [hpos]
  have hp : peek 1 ⟨4096, 0, [], none, none, (c, none) :: rest⟩ = some ((c.take 1, none), ⟨4096, 0, c, none, none, rest⟩) := by
    unfold peek
    have : peekLoop (4096 + 2) 1 ⟨4096, 0, [], none, none, (c, none) :: rest⟩ = some ⟨4096, 0, c, none, none, rest⟩ := by
      rw [peekLoop, if_pos (by simp), hf]
      simp only
      rw [peekLoop, if_neg (by simp only; omega)]
    simp only [this]
    rw [if_neg (by omega), if_neg (by omega)]
  have h0 := peek_buffered ⟨4096, 0, [], none, none, (c, none) :: rest⟩ ⟨by simp, by simp⟩
  have h1 := peek_buffered ⟨4096, 0, c, none, none, rest⟩ ⟨by simp, by simpa using hl⟩
  simp only [List.length_nil] at h0
  simp only at h1
  have key : ∀ f, (peekHeaderLoop trim target (f + 2) (Rd.new 4096 ((c, none) :: rest))).map (·.1) =
      match scanLoop trim target c c 0 0 with
      | .found v => some (.ok v)
      | .bad => some (.error .invalidLength)
      | .endOfHeaders => some (.error .noHost)
      | .more => if c.length > 2048 then some (.error .invalidProto) else
          (peekHeaderLoop trim target (f + 2) (Rd.new 4096 ((c, none) :: rest))).map (·.1) := by
    intro f
    have e : peekHeaderLoop trim target (f + 2) (Rd.new 4096 ((c, none) :: rest)) =
        peekHeaderLoop trim target (f + 1) ⟨4096, 0, c, none, none, rest⟩ := by
      conv => lhs; rw [peekHeaderLoop]
      have h0' : peek (Rd.new 4096 ((c, none) :: rest)).data.length (Rd.new 4096 ((c, none) :: rest)) =
          some (([], none), ⟨4096, 0, [], none, none, (c, none) :: rest⟩) := h0
      have hp' : peek ((Rd.new 4096 ((c, none) :: rest)).data.length + 1) ⟨4096, 0, [], none, none, (c, none) :: rest⟩ =
          some ((c.take 1, none), ⟨4096, 0, c, none, none, rest⟩) := hp
      simp only [h0', scanLoop]
      rw [if_neg (by simp [Rd.new])]
      simp only [hp']
    generalize hR : (peekHeaderLoop trim target (f + 2) (Rd.new 4096 ((c, none) :: rest))).map (·.1) = R
    rw [← hR, e]
    rw [peekHeaderLoop]
    simp only [h1]
    cases hsc : scanLoop trim target c c 0 0 with
    | found v => rfl
    | bad => rfl
    | endOfHeaders => rfl
    | more =>
      simp only
      split
      · rename_i hg
        rw [if_pos (by simpa [maxHeader] using hg)]; rfl
      · rename_i hg
        rw [if_neg (by simpa [maxHeader] using hg)]
  exact key (maxHeader + 1)

theorem seg_aux (xs : Bytes) (hxl : xs.length = 2049) (hx : ∀ b ∈ xs, b = 120) :
    ∃ A B : Script, bytesOf A = bytesOf B ∧ Clean A ∧ Clean B ∧
      (peekHeader trimAscii hostTarget (Rd.new 4096 A)).map (·.1) = some (.ok (ascii "a")) ∧
      (peekHeader trimAscii hostTarget (Rd.new 4096 B)).map (·.1) = some (.error .invalidProto) := by
  have h10 : (10 : UInt8) ∉ xs := by
    intro h; have := hx _ h; simp at this
  have hnp : ¬ hostTarget <+: xs := by
    rintro ⟨t, ht⟩
    have h72 : (72 : UInt8) ∈ xs := by
      rw [← ht]; simp [hostTarget, ascii]
    have := hx _ h72; simp at this
  have hcr : ¬ (13 : UInt8) ∈ xs ++ [10] := by
    intro h
    simp only [List.mem_append, List.mem_singleton] at h
    rcases h with h | h
    · have := hx _ h; simp at this
    · simp at h
  have hsuf : ¬ crlf2 <:+ [] ++ xs ++ [10] := by
    rintro ⟨t, ht⟩
    apply hcr
    rw [List.nil_append] at ht
    rw [← ht]; simp [crlf2]
  have hu := undecided_snoc (undecided_nil hostTarget) h10 (Or.inl rfl) hnp hsuf
  rw [List.nil_append] at hu
  have hfh : FirstHeader hostTarget (xs ++ ascii "\nHost: a\n") (ascii "a")
      ((xs ++ [10] ++ (hostTarget ++ ascii "a")).length + 1) := by
    refine ⟨xs ++ [10], [], ⟨?_, by decide, Or.inr ?_⟩, hu, rfl⟩
    · simp only [List.append_assoc]
      congr 1
    · rw [List.getLast?_concat]
  have hscan : scanLoop trimAscii hostTarget (xs ++ ascii "\nHost: a\n")
      (xs ++ ascii "\nHost: a\n") 0 0 = .found (ascii "a") := by
    have h := scan_spec trimAscii hostTarget (xs ++ ascii "\nHost: a\n")
    generalize scanLoop trimAscii hostTarget _ _ 0 0 = sc at h
    cases sc with
    | found v =>
      obtain ⟨x, len, h1, h2, _⟩ := h
      rw [h2, ← (firstHeader_unique hfh h1).1]; decide
    | bad =>
      obtain ⟨x, len, h1, h2⟩ := h
      rw [← (firstHeader_unique hfh h1).1] at h2
      exact absurd (by decide) h2
    | endOfHeaders =>
      obtain ⟨len, h1⟩ := h
      exact (firstHeader_not_end hfh h1).elim
    | more =>
      have := (more_notWithin (t := []) h).1 _ _ (by rw [List.append_nil]; exact hfh)
      simp only [List.length_append, hxl] at this
      exact absurd this (by decide)
  have hmore : scanLoop trimAscii hostTarget (xs) (xs) 0 0 = .more := by
    have h := scan_spec trimAscii hostTarget (xs)
    have hno : ∀ a l r, ¬ LineAt (xs) a l r := by
      rintro a l r ⟨h1, _⟩
      apply h10
      rw [h1]; simp
    generalize scanLoop trimAscii hostTarget _ _ 0 0 = sc at h
    cases sc with
    | found v => obtain ⟨x, len, ⟨p, r, h1, _⟩, _⟩ := h; exact (hno _ _ _ h1).elim
    | bad => obtain ⟨x, len, ⟨p, r, h1, _⟩, _⟩ := h; exact (hno _ _ _ h1).elim
    | endOfHeaders => obtain ⟨len, p, l, r, h1, _⟩ := h; exact (hno _ _ _ h1).elim
    | more => rfl
  have hne : ∀ t : Bytes, xs ++ t ≠ [] := by
    intro t h
    have := congrArg List.length h
    simp only [List.length_append, hxl, List.length_nil] at this
    omega
  have hlenA : (xs ++ ascii "\nHost: a\n").length = 2058 := by
    rw [List.length_append, hxl]; decide
  refine ⟨[(xs ++ ascii "\nHost: a\n", none)],
    [(xs, none), (ascii "\nHost: a\n", none)], ?_, ?_, ?_, ?_, ?_⟩
  · rw [bytesOf_cons, bytesOf_cons, bytesOf_cons, List.append_assoc]
  · intro c hc
    rw [List.mem_singleton] at hc
    subst hc
    exact ⟨hne _, rfl⟩
  · intro c hc
    rw [List.mem_cons, List.mem_singleton] at hc
    rcases hc with rfl | rfl
    · exact ⟨by have := hne []; rwa [List.append_nil] at this, rfl⟩
    · exact ⟨by decide, rfl⟩
  · rw [peekHeader_first _ _ _ _ (hne _) (by rw [hlenA]; decide), hscan]
  · rw [peekHeader_first _ _ _ _ (by have := hne []; rwa [List.append_nil] at this) (by rw [hxl]; decide), hmore]
    simp only [hxl]
    rw [if_pos (by decide)]

/-- **C05** is false as stated for header lines ending beyond byte 2049: the outcome then depends on
the segmentation, and more than 2048 bytes are looked at. The same 2059 bytes are routed to `a` when
they arrive in one segment and rejected when the first segment has 2049 bytes. -/
theorem header_beyond_limit_depends_on_segmentation :
    ∃ A B : Script, bytesOf A = bytesOf B ∧ Clean A ∧ Clean B ∧
      (peekHeader trimAscii hostTarget (Rd.new 4096 A)).map (·.1) = some (.ok (ascii "a")) ∧
      (peekHeader trimAscii hostTarget (Rd.new 4096 B)).map (·.1) = some (.error .invalidProto) :=
  seg_aux (List.replicate 2049 120) List.length_replicate (fun _ hb => List.eq_of_mem_replicate hb)

/-- **C06**: an id is accepted from a host exactly when the host is `id.mid.rest` with a dot-free `id`
and a non-empty dot-free `mid`; the id is then the text before the first dot. -/
theorem id_from_host (host id : Bytes) :
    parseIDFromHost host = some id ↔
      ∃ mid rest, host = id ++ 46 :: (mid ++ 46 :: rest) ∧ (46 : UInt8) ∉ id ∧ mid ≠ [] ∧ (46 : UInt8) ∉ mid := by
  have idx : ∀ (l : Bytes) (i : Nat), l.idxOf? 46 = some i ↔ ∃ a b, l = a ++ 46 :: b ∧ (46 : UInt8) ∉ a ∧ a.length = i := by
    intro l i
    rw [List.idxOf?, List.findIdx?_eq_some_iff_getElem]
    constructor
    · rintro ⟨h, h1, h2⟩
      refine ⟨l.take i, l.drop (i + 1), ?_, ?_, by simp; omega⟩
      · conv => lhs; rw [← List.take_append_drop i l, List.drop_eq_getElem_cons h]
        simp at h1; rw [h1]
      · intro hm
        rw [List.mem_take_iff_getElem] at hm
        obtain ⟨k, hk, he⟩ := hm
        have := h2 k (by omega)
        simp [he] at this
    · rintro ⟨a, b, rfl, ha, rfl⟩
      refine ⟨by simp, by simp, ?_⟩
      intro j hj
      simp only [List.getElem_append_left hj]
      simp
      intro hh
      exact ha (hh ▸ List.getElem_mem hj)
  unfold parseIDFromHost
  constructor
  · intro h
    split at h
    · simp at h
    · rename_i i hi
      obtain ⟨a, b, rfl, ha, rfl⟩ := (idx _ _).mp hi
      have e1 : (a ++ 46 :: b).drop (a.length + 1) = b := by
        rw [show a ++ 46 :: b = (a ++ [46]) ++ b by simp, List.drop_left' (by simp)]
      rw [e1] at h
      split at h
      · simp at h
      · split at h
        · simp at h
        · simp at h
        · rename_i j hj
          obtain ⟨m, r, rfl, hm, hl⟩ := (idx _ _).mp hj
          simp at h
          subst h
          exact ⟨m, r, rfl, ha, by intro hh; simp [hh] at hl, hm⟩
  · rintro ⟨mid, rest, rfl, h1, h2, h3⟩
    rw [(idx _ _).mpr ⟨id, _, rfl, h1, rfl⟩]
    have e1 : (id ++ 46 :: (mid ++ 46 :: rest)).drop (id.length + 1) = mid ++ 46 :: rest := by
      rw [show id ++ 46 :: (mid ++ 46 :: rest) = (id ++ [46]) ++ (mid ++ 46 :: rest) by simp, List.drop_left' (by simp)]
    simp only [e1]
    rw [if_neg (by simp), (idx (mid ++ 46 :: rest) mid.length).mpr ⟨mid, _, rfl, h3, rfl⟩]
    cases mid with
    | nil => exact absurd rfl h2
    | cons c cs => simp

example : parseIDFromHost (ascii "web.example.com") = some (ascii "web") ∧ parseIDFromHost (ascii "web.example") = none ∧
    parseIDFromHost (ascii "web..com") = none := by decide

/-- **C05/C06** combined, as `handleHTTP` uses them: an HTTP connection on a `Host`-muxed server is
routed to `id` only if the first `Host: ` line of the request is, trimmed, `id.mid.rest`; nothing of
the request is consumed. -/
theorem http_route_by_host (trim : Bytes → Bytes) (s : Rd) (hcap : 2049 ≤ s.cap)
    (hfit : s.r + s.data.length ≤ s.cap) :
    ∃ res s', httpID trim (ascii "Host") s = some (res, s') ∧
      s'.data ++ bytesOf s'.src = s.data ++ bytesOf s.src ∧
      ∀ id, res = some id → id ≠ [] ∧ (46 : UInt8) ∉ id ∧
        ∃ x len mid rest, FirstHeader hostTarget (s.data ++ bytesOf s.src) x len ∧
          trim x = id ++ 46 :: (mid ++ 46 :: rest) ∧ mid ≠ [] := by
  obtain ⟨res, s', h1, h2, h3⟩ := header_search trim hostTarget s hcap hfit
  unfold httpID
  rw [if_pos rfl, h1]
  cases res with
  | error e => exact ⟨none, s', rfl, h2, by simp⟩
  | ok host =>
    simp only at h3
    obtain ⟨x, len, g1, rfl, g3, _⟩ := h3
    simp only
    rw [if_neg (by omega)]
    cases hp : parseIDFromHost (trim x) with
    | none => exact ⟨none, s', rfl, h2, by simp⟩
    | some id =>
      simp only
      obtain ⟨mid, rest, k1, k2, k3, k4⟩ := (id_from_host _ _).mp hp
      split
      · exact ⟨none, s', rfl, h2, by simp⟩
      · rename_i hl
        refine ⟨some id, s', rfl, h2, ?_⟩
        intro id' he
        simp at he
        subst he
        exact ⟨by intro hh; simp [hh] at hl, k2, x, len, mid, rest, g1, k1, k3⟩

example : (httpID trimAscii (ascii "Host") (Rd.new 4096 [(ascii "GET / HTTP/1.1\r\nHost: web.x.org\r\n\r\n", none)])).map (·.1) =
    some (some (ascii "web")) := by decide +kernel

/-- **C05**: with any other configured header, the id is the trimmed value of its first line. -/
theorem http_route_by_header (trim : Bytes → Bytes) (mux : Bytes) (hm : mux ≠ ascii "Host") (s : Rd)
    (hcap : 2049 ≤ s.cap) (hfit : s.r + s.data.length ≤ s.cap) :
    ∃ res s', httpID trim mux s = some (res, s') ∧
      s'.data ++ bytesOf s'.src = s.data ++ bytesOf s.src ∧
      ∀ id, res = some id → id ≠ [] ∧ id.length ≤ 512 ∧
        ∃ x len, FirstHeader (mux ++ [58]) (s.data ++ bytesOf s.src) x len ∧ id = trim x := by
  obtain ⟨res, s', h1, h2, h3⟩ := header_search trim (mux ++ [58]) s hcap hfit
  unfold httpID
  rw [if_neg hm, h1]
  cases res with
  | error e => exact ⟨none, s', rfl, h2, by simp⟩
  | ok id =>
    simp only at h3
    obtain ⟨x, len, g1, g2, g3, g4⟩ := h3
    simp only
    rw [if_neg (by omega)]
    refine ⟨some id, s', rfl, h2, ?_⟩
    intro id' he
    simp at he
    subst he
    exact ⟨by intro hh; simp [hh] at g3, g4, x, len, g1, g2⟩

/-- The host-name match is case- and space-sensitive: a request whose only host header is `host:`
in lower case, or has no space after the colon, is rejected although HTTP allows both. -/
theorem lower_case_host_rejected :
    (httpID trimAscii (ascii "Host") (Rd.new 4096 [(ascii "GET / HTTP/1.1\r\nhost: a.b.c\r\n\r\n", none)])).map (·.1) = some none ∧
    (httpID trimAscii (ascii "Host") (Rd.new 4096 [(ascii "GET / HTTP/1.1\r\nHost:a.b.c\r\n\r\n", none)])).map (·.1) = some none := by
  constructor <;> decide +kernel

/-- **C07** (memory safety): whatever the peer sends, in whatever segments and with whatever failures,
the SNI peek returns without indexing outside the received bytes and consumes nothing. -/
theorem sni_never_panics (s : Rd) (hcap : 0 < s.cap) (hfit : s.r + s.data.length ≤ s.cap) :
    ∃ res s', peekTLSHost s = some (res, s') ∧ res ≠ .panic ∧
      s'.data ++ bytesOf s'.src = s.data ++ bytesOf s.src := by
  have hc : Cap s := ⟨hcap, hfit⟩
  obtain ⟨bs, e, s1, h1, h2, _⟩ := peek_spec 1 s hc
  have hst : stream s1 = stream s := h2.stream
  unfold peekTLSHost
  rw [h1]
  cases e with
  | some e => exact ⟨.fail, s1, rfl, by simp, hst⟩
  | none =>
    simp only
    rw [peek_buffered s1 h2.inv]
    exact ⟨_, _, rfl, parseHello_safe _, hst⟩

/-- **C07** (correctness, partial: the whole ClientHello must arrive in the first read): for every
well-formed ClientHello with a server name, whatever surrounds it, exactly that name is returned. -/
theorem sni_correct_partial (h : Hello) (hw : h.WF) (cap : Nat) (e : Option Err) (rest : Script)
    (hlen : h.bytes.length ≤ cap) :
    ∃ s', peekTLSHost (Rd.new cap ((h.bytes, e) :: rest)) = some (.name h.name, s') := by
  have hpos : 0 < h.bytes.length := by
    have : 0 < [(22 : UInt8)].length := by simp
    simp [Hello.bytes]
  have hf : fill ⟨cap, 0, [], none, none, (h.bytes, e) :: rest⟩ =
      some ⟨cap, 0, h.bytes, e, none, rest⟩ := by
    simp only [fill]
    rw [if_neg (by simp; omega)]
    congr 1
    unfold fillLoop
    simp only [srcRead]
    rw [if_pos (by simpa using hlen)]
    cases e <;> simp [hpos]
  have hp : peek 1 (Rd.new cap ((h.bytes, e) :: rest)) = some ((h.bytes.take 1, none), ⟨cap, 0, h.bytes, e, none, rest⟩) := by
    unfold peek
    have : peekLoop ((Rd.new cap ((h.bytes, e) :: rest)).cap + 2) 1 { Rd.new cap ((h.bytes, e) :: rest) with last := none } =
        some ⟨cap, 0, h.bytes, e, none, rest⟩ := by
      simp only [Rd.new]
      rw [peekLoop, if_pos (by simp; omega), hf]
      simp only
      rw [peekLoop, if_neg (by simp only; omega)]
    rw [this]
    simp only
    rw [if_neg (by omega), if_neg (by omega)]
  unfold peekTLSHost
  rw [hp]
  simp only
  have hpb := peek_buffered ⟨cap, 0, h.bytes, e, none, rest⟩ ⟨by simp only; omega, by simp only; omega⟩
  simp only at hpb
  rw [hpb]
  simp only
  rw [parseHello_hello h hw]
  exact ⟨_, rfl⟩

/-- A concrete ClientHello with another extension in front. -/
def sampleHello : Hello :=
  ⟨[3, 1], [0, 0], [0, 0, 0], [3, 3], List.replicate 32 7, [9, 9], [0x13, 1], [0], [⟨10, [1, 2]⟩], ascii "web.x.org", [], [⟨16, []⟩]⟩

example : sampleHello.WF := by
  constructor <;> simp [sampleHello, Hello.exts, Hello.sniBody, Extn.bytes, be16, ascii]

/-- **C07** does not hold over segmentations: the same well-formed ClientHello split over two TCP
segments is rejected. -/
theorem sni_split_hello_rejected :
    ∃ s', peekTLSHost (Rd.new 4096 [(sampleHello.bytes.take 40, none), (sampleHello.bytes.drop 40, none)]) =
      some (.fail, s') := by
  refine ⟨⟨4096, 0, sampleHello.bytes.take 40, none, none, [(sampleHello.bytes.drop 40, none)]⟩, ?_⟩
  decide +kernel

end Verif.Route
