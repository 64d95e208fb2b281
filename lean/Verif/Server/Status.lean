import Verif.Common
set_option linter.unusedSimpArgs false
set_option linter.unusedVariables false
/-!
# C89: the status page of a server
(libcs/server/api/server.go:87-223 `status`, `randomIDSecret`, `Auth`, `check`)

`check` holds a mutex from beginning to end, so that requests are handled one after another. Times are milliseconds of a
monotonic clock.
-/
namespace Verif.Server.Status

/-- The fields of `Server` (libcs/client/api/server.go:35-50): the cached response with its time, and the credentials in force. -/
structure St where
  cache : Option (Bytes × Nat)
  id : Bytes
  secret : Bytes
deriving DecidableEq, Repr

/-- libcs/server/api/server.go:71-85 `NewServer`; 52-68 `ID`, `Secret`: nothing stored reads as empty. -/
def init : St := { cache := none, id := [], secret := [] }

/-- One request and what the world does during it: when it is made; the ids drawn, with whether they are in use (`idConflict`);
the secret drawn; how the round trip through a fresh client and its tunnel ends (`none`: an error anywhere from `client.New`
to `Body.Close`) and how long it takes. -/
structure Req where
  at_ : Nat
  draws : List (Bytes × Bool)
  secret : Bytes
  trip : Option Bytes
  took : Nat

inductive Resp where
  | ok (body : Bytes)
  | failed
deriving DecidableEq, Repr

/-- What happened during a request: when it began and ended, the credentials in force meanwhile, whether a round trip was
made, and the response. -/
structure Log where
  began : Nat
  ended : Nat
  creds : Option (Bytes × Bytes)
  tripped : Bool
  resp : Resp
deriving DecidableEq, Repr

/-- libcs/server/api/server.go:108-120 `randomIDSecret`: the first of ten draws that is not in use. -/
def pick (draws : List (Bytes × Bool)) : Option Bytes :=
  ((draws.take 10).find? (fun d => d.2 = false)).map (·.1)

/-- libcs/server/api/server.go:141-146: 15 s. -/
def fresh (now : Nat) : Option (Bytes × Nat) → Option Bytes
  | some (b, t) => if 0 < b.length ∧ now - t ≤ 15000 then some b else none
  | none => none

/-- libcs/server/api/server.go:128-223 `check`, with `status` (87-98). `start` is when the mutex was taken. -/
def check (s : St) (start : Nat) (r : Req) : Log × St :=
  match pick r.draws with
  | none => ({ began := start, ended := start, creds := none, tripped := false, resp := .failed }, s)
  | some id =>
    match fresh start s.cache with
    | some b => ({ began := start, ended := start, creds := some (id, r.secret), tripped := false, resp := .ok b },
        { s with id := [], secret := [] })
    | none =>
      match r.trip with
      | none => ({ began := start, ended := start + r.took, creds := some (id, r.secret), tripped := true, resp := .failed },
          { s with id := [], secret := [] })
      | some b => ({ began := start, ended := start + r.took, creds := some (id, r.secret), tripped := true, resp := .ok b },
          { cache := some (b, start + r.took), id := [], secret := [] })

/-- Requests are handled in the order in which they get the mutex, which is free from `free` on. -/
def serve (s : St) (free : Nat) : List Req → List (Req × Log)
  | [] => []
  | r :: rs =>
    let (l, s') := check s (max free r.at_) r
    (r, l) :: serve s' l.ended rs

/-! ## Specification and proofs -/

/-- A round trip that ended with this body at time `t`. -/
def Trip (x : Req × Log) (b : Bytes) (t : Nat) : Prop := x.2.tripped = true ∧ x.1.trip = some b ∧ x.2.ended = t ∧ x.2.resp = .ok b

theorem check_began (s : St) (n : Nat) (r : Req) : (check s n r).1.began = n := by
  unfold check; split
  · rfl
  · split
    · rfl
    · split <;> rfl

theorem check_ended (s : St) (n : Nat) (r : Req) : n ≤ (check s n r).1.ended := by
  unfold check; split
  · simp
  · split
    · simp
    · split <;> simp

/-- What a request leaves in the cache, and what it answers. -/
theorem check_cases (s : St) (n : Nat) (r : Req) :
    ((check s n r).2.cache = s.cache ∧
      ((check s n r).1.resp = .failed ∨ ∃ b t, s.cache = some (b, t) ∧ n - t ≤ 15000 ∧ (check s n r).1.resp = .ok b ∧
        (check s n r).1.tripped = false)) ∨
    ∃ b, (check s n r).2.cache = some (b, (check s n r).1.ended) ∧ Trip (r, (check s n r).1) b (check s n r).1.ended := by
  unfold check; split
  · exact .inl ⟨rfl, .inl rfl⟩
  · split
    · rename_i b hb
      left
      refine ⟨rfl, .inr ?_⟩
      unfold fresh at hb
      split at hb
      · rename_i b' t hc
        split at hb
        · rename_i hh; cases hb; exact ⟨b, t, hc, hh.2, rfl, rfl⟩
        · cases hb
      · cases hb
    · split
      · exact .inl ⟨rfl, .inl rfl⟩
      · rename_i b hb
        exact .inr ⟨b, rfl, rfl, hb, rfl, rfl⟩

/-- Whatever is answered with success is the body of a round trip that ended at most 15 s before the request was looked at
(or of the round trip of this very request). -/
theorem ok_is_recent_aux : ∀ (rs : List Req) (s : St) (free : Nat) (past : List (Req × Log)),
    (∀ b t, s.cache = some (b, t) → t ≤ free ∧ ∃ y ∈ past, Trip y b t) →
    ∀ pre x post, serve s free rs = pre ++ x :: post → ∀ b, x.2.resp = .ok b →
      ∃ y t, (y ∈ past ++ pre ∨ y = x) ∧ Trip y b t ∧ t ≤ x.2.ended ∧ x.2.began - t ≤ 15000
  | [], s, free, past, hc, pre, x, post, h, b, hb => by cases pre <;> cases h
  | r :: rs, s, free, past, hc, pre, x, post, h, b, hb => by
    have hbe := check_began s (max free r.at_) r
    have hen := check_ended s (max free r.at_) r
    simp only [serve] at h
    cases pre with
    | nil =>
      simp only [List.nil_append, List.cons.injEq] at h
      obtain ⟨rfl, _⟩ := h
      rcases check_cases s (max free r.at_) r with ⟨_, h1 | ⟨b', t, h1, h2, h3, _⟩⟩ | ⟨b', _, h2⟩
      · dsimp only at hb; rw [h1] at hb; cases hb
      · dsimp only at hb; rw [h3] at hb; cases hb
        obtain ⟨ht, y, hy, hyt⟩ := hc _ _ h1
        refine ⟨y, t, .inl (by simpa using hy), hyt, ?_, ?_⟩
        · dsimp only; omega
        · dsimp only; rw [hbe]; exact h2
      · have : b = b' := by have := h2.2.2.2; dsimp only at this hb; rw [this] at hb; cases hb; rfl
        subst this
        refine ⟨_, _, .inr rfl, h2, Nat.le_refl _, ?_⟩
        dsimp only; rw [hbe]; omega
    | cons p pre =>
      simp only [List.cons_append, List.cons.injEq] at h
      obtain ⟨hp, h⟩ := h
      have hc' : ∀ b t, (check s (max free r.at_) r).2.cache = some (b, t) →
          t ≤ (check s (max free r.at_) r).1.ended ∧ ∃ y ∈ past ++ [p], Trip y b t := by
        intro b t hbt
        rcases check_cases s (max free r.at_) r with ⟨h0, _⟩ | ⟨b', h1, h2⟩
        · rw [h0] at hbt
          obtain ⟨ht, y, hy, hyt⟩ := hc _ _ hbt
          exact ⟨by omega, y, List.mem_append_left _ hy, hyt⟩
        · rw [h1] at hbt; cases hbt
          exact ⟨Nat.le_refl _, p, by simp, by rw [← hp]; exact h2⟩
      obtain ⟨y, t, hy, rest⟩ := ok_is_recent_aux rs _ _ (past ++ [p]) hc' pre x post h b hb
      refine ⟨y, t, ?_, rest⟩
      rcases hy with hy | hy
      · left; simpa using hy
      · exact .inr hy

/-- **C89**: every successful answer, in every history of requests, is the answer of a round trip through the server that
was completed at most 15 s before the request was handled, or during it. -/
theorem ok_is_recent (rs : List Req) (pre post : List (Req × Log)) (x : Req × Log) (b : Bytes)
    (h : serve init 0 rs = pre ++ x :: post) (hb : x.2.resp = .ok b) :
    ∃ y t, (y ∈ pre ∨ y = x) ∧ Trip y b t ∧ t ≤ x.2.ended ∧ x.2.began - t ≤ 15000 := by
  obtain ⟨y, t, hy, rest⟩ := ok_is_recent_aux rs init 0 [] (fun b t h => by cases h) pre x post h b hb
  exact ⟨y, t, by simpa using hy, rest⟩

/-- A failure is reported only if no id could be drawn or the round trip of this request failed. -/
theorem failure_is_real (s : St) (n : Nat) (r : Req) (h : (check s n r).1.resp = .failed) :
    pick r.draws = none ∨ ((check s n r).1.tripped = true ∧ r.trip = none) := by
  unfold check at h ⊢
  split
  · rename_i hp; exact .inl hp
  · rename_i id hp
    rw [hp] at h
    dsimp only at h ⊢
    split at h
    · cases h
    · rename_i hf
      split at h
      · rename_i ht; right; simp [ht]
      · cases h

/-- The credentials of the health check are never those of a client that is in use, and no request leaves any behind. -/
theorem credentials_only_meanwhile (s : St) (hs : s.id = [] ∧ s.secret = []) (n : Nat) (r : Req) :
    ((check s n r).2.id = [] ∧ (check s n r).2.secret = []) ∧
    ∀ id sec, (check s n r).1.creds = some (id, sec) → sec = r.secret ∧ (id, false) ∈ r.draws := by
  have hpick : ∀ id, pick r.draws = some id → (id, false) ∈ r.draws := by
    intro id h
    unfold pick at h
    obtain ⟨d, hd, he⟩ := Option.map_eq_some_iff.mp h
    have h1 := List.mem_of_find?_eq_some hd
    have h2 := List.find?_some hd
    have h3 := List.mem_of_mem_take h1
    obtain ⟨a, b⟩ := d
    simp at h2 he
    subst h2 he
    exact h3
  unfold check
  split
  · exact ⟨hs, fun id sec h => by cases h⟩
  · rename_i id hid
    split
    · exact ⟨⟨rfl, rfl⟩, fun i sec h => by cases h; exact ⟨rfl, hpick id hid⟩⟩
    · split
      · exact ⟨⟨rfl, rfl⟩, fun i sec h => by cases h; exact ⟨rfl, hpick id hid⟩⟩
      · exact ⟨⟨rfl, rfl⟩, fun i sec h => by cases h; exact ⟨rfl, hpick id hid⟩⟩

/-- Round trips that succeed with a nonempty body are at least 15 s apart, so that requests cannot make the server
busy with them. -/
theorem trips_are_spaced (s : St) (n : Nat) (r : Req) (b : Bytes) (t : Nat) (hc : s.cache = some (b, t)) (hb : b ≠ [])
    (h : (check s n r).1.tripped = true) : t + 15000 < n := by
  unfold check at h
  split at h
  · cases h
  · split at h
    · cases h
    · rename_i hf
      unfold fresh at hf
      rw [hc] at hf
      dsimp only at hf
      split at hf
      · cases hf
      · rename_i hh
        have : 0 < b.length := by cases b with
          | nil => exact absurd rfl hb
          | cons => simp
        simp [this] at hh
        omega

/-- After a cached answer, nothing trips within 15 s of it. -/
theorem after_cache : ∀ (rs : List Req) (s : St) (free : Nat) (b : Bytes) (t : Nat), s.cache = some (b, t) → b ≠ [] → t ≤ free →
    ∀ y ∈ serve s free rs, y.2.tripped = true → t + 15000 < y.2.began
  | [], s, free, b, t, hc, hb, ht, y, hy, h => by cases hy
  | r :: rs, s, free, b, t, hc, hb, ht, y, hy, h => by
    have hbe := check_began s (max free r.at_) r
    have hen := check_ended s (max free r.at_) r
    simp only [serve, List.mem_cons] at hy
    rcases hy with rfl | hy
    · dsimp only at h ⊢; rw [hbe]; exact trips_are_spaced s _ r b t hc hb h
    · rcases check_cases s (max free r.at_) r with ⟨h0, _⟩ | ⟨b', h1, h2⟩
      · exact after_cache rs _ _ b t (by rw [h0]; exact hc) hb (by omega) y hy h
      · have h3 := trips_are_spaced s _ r b t hc hb h2.1
        have : ∀ (rs : List Req) (s : St) (free : Nat), ∀ y ∈ serve s free rs, free ≤ y.2.began := by
          intro rs
          induction rs with
          | nil => intro s free y hy; cases hy
          | cons r rs ih =>
            intro s free y hy
            have hbe := check_began s (max free r.at_) r
            have hen := check_ended s (max free r.at_) r
            simp only [serve, List.mem_cons] at hy
            rcases hy with rfl | hy
            · dsimp only; rw [hbe]; omega
            · have := ih _ _ y hy; omega
        have := this rs _ _ y hy
        omega

theorem serve_split : ∀ (rs : List Req) (s : St) (free : Nat) (pre : List (Req × Log)) (x : Req × Log) (post : List (Req × Log)),
    serve s free rs = pre ++ x :: post → ∃ s' n r rs', x = (r, (check s' n r).1) ∧
      post = serve (check s' n r).2 (check s' n r).1.ended rs'
  | [], s, free, pre, x, post, h => by cases pre <;> cases h
  | r :: rs, s, free, pre, x, post, h => by
    simp only [serve] at h
    cases pre with
    | nil =>
      simp only [List.nil_append, List.cons.injEq] at h
      exact ⟨s, _, r, rs, h.1.symm, h.2.symm⟩
    | cons p pre =>
      simp only [List.cons_append, List.cons.injEq] at h
      exact serve_split rs _ _ pre x post h.2

/-- **C89**: in every history, after a round trip that brought a nonempty answer no other is made for 15 s, however many
requests come. -/
theorem round_trips_are_rare (rs : List Req) (pre post : List (Req × Log)) (x y : Req × Log) (b : Bytes) (t : Nat)
    (h : serve init 0 rs = pre ++ x :: post) (hx : Trip x b t) (hb : b ≠ []) (hy : y ∈ post) (hyt : y.2.tripped = true) :
    t + 15000 < y.2.began := by
  obtain ⟨s, n, r, rs', rfl, hpost⟩ := serve_split rs init 0 pre x post h
  have hc : (check s n r).2.cache = some (b, t) := by
    rcases check_cases s n r with ⟨h0, h1⟩ | ⟨b', h1, h2⟩
    · rcases h1 with h1 | ⟨b', t', _, _, _, h4⟩
      · have := hx.2.2.2; dsimp only at this; rw [h1] at this; cases this
      · have := hx.1; dsimp only at this; rw [h4] at this; cases this
    · have e1 : b' = b := by have a := h2.2.2.2; have c := hx.2.2.2; dsimp only at a c; rw [a] at c; cases c; rfl
      have e2 := hx.2.2.1; dsimp only at e2
      rw [h1, e1, e2]
  rw [hpost] at hy
  exact after_cache rs' _ _ b t hc hb (by have := hx.2.2.1; dsimp only at this; omega) y hy hyt

/-- An answer without a round trip is not empty: an empty answer is never taken from the cache. -/
theorem cached_answer_not_empty (s : St) (n : Nat) (r : Req) (b : Bytes) (h : (check s n r).1.resp = .ok b)
    (ht : (check s n r).1.tripped = false) : b ≠ [] := by
  unfold check at h ht
  split at h
  · cases h
  · rename_i id hp
    rw [hp] at ht
    dsimp only at h ht
    split at h
    · rename_i b' hf
      cases h
      unfold fresh at hf
      split at hf
      · split at hf
        · rename_i hh; cases hf; intro e; subst e; exact absurd hh.1 (by simp)
        · cases hf
      · cases hf
    · rename_i hf
      rw [hf] at ht
      dsimp only at ht
      split at ht <;> cases ht

/-- The answer of the round trip is passed on whatever it is: the status code is not looked at, so that any complete
response, such as the page of an error, counts as success. -/
theorem any_response_is_success (s : St) (n : Nat) (r : Req) (id b : Bytes) (hp : pick r.draws = some id)
    (hf : fresh n s.cache = none) (ht : r.trip = some b) : (check s n r).1.resp = .ok b := by
  unfold check; rw [hp]; dsimp only; rw [hf]; dsimp only; rw [ht]

/-- Non-vacuity: a check, an answer from the cache 15 s later, a new check after that, which fails. -/
example : (serve init 0 [⟨0, [([1], true), ([2], false)], [9], some [111], 100⟩, ⟨15100, [([3], false)], [8], none, 5⟩,
      ⟨15101, [([4], false)], [7], none, 5⟩]).map (fun x => (x.2.resp, x.2.tripped)) =
    [(.ok [111], true), (.ok [111], false), (.failed, true)] := by decide +kernel

/-- Ten draws are made and no more: if all of them are in use, the check fails, whatever could be drawn after them. -/
theorem ten_draws (s : St) (n : Nat) (r : Req) (taken more : List (Bytes × Bool)) (hr : r.draws = taken ++ more) (h10 : taken.length = 10)
    (ht : ∀ d ∈ taken, d.2 = true) : (check s n r).1.resp = .failed ∧ (check s n r).1.tripped = false ∧ (check s n r).2 = s := by
  have : pick r.draws = none := by
    unfold pick
    rw [hr, List.take_append, h10]
    simp only [Nat.sub_self, List.take_zero, List.append_nil, Option.map_eq_none_iff, List.find?_eq_none]
    intro d hd
    have := ht d (List.mem_of_mem_take hd)
    simp [this]
  unfold check
  rw [this]
  exact ⟨rfl, rfl, rfl⟩

/-- The id that is used is the first of ten that is free. -/
theorem first_free_draw (s : St) (n : Nat) (r : Req) (taken more : List (Bytes × Bool)) (id : Bytes)
    (hr : r.draws = taken ++ (id, false) :: more) (h10 : taken.length < 10) (ht : ∀ d ∈ taken, d.2 = true) :
    (check s n r).1.creds = some (id, r.secret) := by
  have : pick r.draws = some id := by
    unfold pick
    obtain ⟨k, hk⟩ : ∃ k, 10 - taken.length = k + 1 := ⟨9 - taken.length, by omega⟩
    rw [hr, List.take_append, List.take_of_length_le (by omega), hk, List.take_succ_cons, List.find?_append]
    have : taken.find? (fun d => d.2 = false) = none := by
      rw [List.find?_eq_none]
      intro d hd
      simp [ht d hd]
    rw [this]
    simp
  unfold check
  rw [this]
  cases hf : fresh n s.cache with
  | some b => rfl
  | none => cases ht : r.trip <;> rfl

end Verif.Server.Status
