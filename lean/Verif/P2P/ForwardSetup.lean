import Verif.Client.PeerMsg
set_option linter.unusedSimpArgs false
set_option linter.unusedVariables false
/-!
# C103, C104: setting up P2P forwarding (libcs/client/tcpforward.go:135-346)

* choosing a peer connection for an application's connection (libcs/client/tcpforward.go:146-152), for every interleaving;
* reading answer and candidates from the response (libcs/client/tcpforward.go:283-345);
* starting the forwarder (libcs/client/tcpforward.go:34-41, 135-145; libcs/client/client.go:528-542).
-/
namespace Verif.P2P.ForwardSetup
open Verif Verif.Client.PeerMsg

/-! ## Choosing a peer connection -/

/-- The shared index, what each goroutine has loaded, and the choices made (goroutine, index), the last one first. -/
structure Pool where
  n : Nat
  i : Nat := 0
  loaded : Nat → Option Nat := fun _ => none
  picks : List (Nat × Nat) := []

inductive PEv where
  | load (g : Nat)
  | store (g : Nat)

/-- libcs/client/tcpforward.go:147-151: `load` is `i.Load()` and the remainder, `store` the rest. -/
def pnext (p : Pool) : PEv → Pool
  | .load g => if (p.loaded g).isSome then p else { p with loaded := fun x => if x = g then some (p.i % p.n) else p.loaded x }
  | .store g =>
    match p.loaded g with
    | some k => { p with i := k + 1, loaded := fun x => if x = g then none else p.loaded x, picks := (g, k) :: p.picks }
    | none => p

def prun (p : Pool) : List PEv → Pool
  | [] => p
  | e :: es => prun (pnext p e) es

/-- libcs/client/tcpforward.go:137-145 with libcs/client/client.go:529-531: a pool that is used has as many connections as configured, and at least one. -/
def poolSize (configured : Nat) : Nat := if configured < 1 then 1 else configured

/-- **Every application's connection gets one of the peer connections**: no choice is out of range, however many goroutines choose at the
same time, whatever is configured. -/
theorem pick_in_range (configured : Nat) (es : List PEv) : ∀ x ∈ (prun { n := poolSize configured } es).picks, x.2 < poolSize configured := by
  have hn : 0 < poolSize configured := by unfold poolSize; split <;> omega
  have : ∀ (es : List PEv) (p : Pool), p.n = poolSize configured → (∀ g k, p.loaded g = some k → k < p.n) → (∀ x ∈ p.picks, x.2 < p.n) →
      ∀ x ∈ (prun p es).picks, x.2 < poolSize configured := by
    intro es
    induction es with
    | nil => intro p h1 _ h3 x hx; rw [← h1]; exact h3 x hx
    | cons e es ih =>
      intro p h1 h2 h3
      cases e with
      | load g =>
        simp only [prun, pnext]
        split
        · exact ih p h1 h2 h3
        · refine ih _ h1 ?_ h3
          intro x k hk
          simp only at hk ⊢
          split at hk
          · simp only [Option.some.injEq] at hk; subst hk; exact Nat.mod_lt _ (by rw [h1]; exact hn)
          · exact h2 x k hk
      | store g =>
        simp only [prun, pnext]
        split
        · rename_i k hk
          refine ih _ h1 ?_ ?_
          · intro x j hj
            simp only at hj ⊢
            split at hj
            · cases hj
            · exact h2 x j hj
          · intro x hx
            simp only [List.mem_cons] at hx
            rcases hx with hx | hx
            · subst hx; exact h2 g k hk
            · exact h3 x hx
        · exact ih p h1 h2 h3
  exact this es _ rfl (by simp) (by simp)

/-- `k` choices one after the other. -/
def oneByOne : Nat → List PEv
  | 0 => []
  | k + 1 => oneByOne k ++ [.load 0, .store 0]

theorem prun_append (p : Pool) (a b : List PEv) : prun p (a ++ b) = prun (prun p a) b := by
  induction a generalizing p with
  | nil => rfl
  | cons e a ih => exact ih _

/-- **Connections that come one after the other are spread evenly**: the k-th choice (counted from 0) is the connection `k mod n`.
C104. Missing from the claim: an even spread when connections come at the same time (`shared_when_concurrent`), and forwarding after a failed attempt (`one_failure_stops_forwarding`): both false. -/
theorem round_robin_partial (n : Nat) (hn : 0 < n) (k : Nat) :
    (prun { n := n } (oneByOne k)).picks.reverse = (List.range k).map (fun j => (0, j % n)) := by
  have : ∀ k, (prun { n := n } (oneByOne k)).picks.reverse = (List.range k).map (fun j => (0, j % n)) ∧
      (prun { n := n } (oneByOne k)).n = n ∧ (prun { n := n } (oneByOne k)).i % n = k % n ∧
      (prun { n := n } (oneByOne k)).loaded 0 = none := by
    intro k
    induction k with
    | zero => simp [oneByOne, prun]
    | succ k ih =>
      simp only [oneByOne, prun_append]
      generalize prun { n := n } (oneByOne k) = p at ih ⊢
      obtain ⟨h1, h2, h3, h4⟩ := ih
      simp only [prun, pnext, h4, Option.isSome_none, Bool.false_eq_true, if_false, if_true]
      refine ⟨?_, h2, ?_, trivial⟩
      · rw [List.reverse_cons, h1, h2, h3, List.range_succ, List.map_append]; rfl
      · rw [h2, h3, Nat.mod_add_mod]
  exact (this k).1

/-- Two that come at the same time may share one while another stays unused. -/
theorem shared_when_concurrent : (prun { n := 2 } [.load 1, .load 2, .store 1, .store 2]).picks = [(2, 0), (1, 0)] := rfl

/-! ## Reading the response -/

/-- What `createPeerConnection` makes of the body: an error, or success with the answer and the candidates passed to the library. -/
inductive Got where
  | err
  | ok (answer : Bytes) (cands : List Bytes)
deriving DecidableEq, Repr

/-- libcs/client/tcpforward.go:310-345: the candidates in the rest of the body; `none` is an error. `accept` says whether a candidate is valid JSON and
taken by the library. The fuel is the number of bytes: every candidate takes at least two. -/
def cands (accept : Bytes → Bool) : Nat → Bytes → Option (List Bytes)
  | 0, _ => some []
  | f + 1, a :: b :: rest =>
    if rest.length < rd16 a b then some []
    else if accept (rest.take (rd16 a b)) then (cands accept f (rest.drop (rd16 a b))).map (rest.take (rd16 a b) :: ·)
    else none
  -- fewer than two bytes: the error of the read is replaced by that of `Close` (lines 314-320)
  | _ + 1, _ => some []

/-- libcs/client/tcpforward.go:283-345. -/
def readResponse (accept : Bytes → Bool) (body : Bytes) : Got :=
  match body with
  | a :: b :: rest =>
    if rest.length < rd16 a b then .err
    else if accept (rest.take (rd16 a b)) then
      match cands accept (rest.drop (rd16 a b)).length (rest.drop (rd16 a b)) with
      | some cs => .ok (rest.take (rd16 a b)) cs
      | none => .err
    else .err
  | _ => .err

theorem rd16_be16 (n : Nat) (h : n < 65536) : ∃ a b, be16 n = [a, b] ∧ rd16 a b = n := by
  refine ⟨_, _, rfl, ?_⟩
  simp only [rd16]
  have h1 : (UInt8.ofNat (n / 256)).toNat = n / 256 := by simp; omega
  have h2 : (UInt8.ofNat n).toNat = n % 256 := by simp
  rw [h1, h2]; omega

/-- The longest list of whole messages at the front of a truncated sequence of frames. -/
def whole : List Bytes → Nat → List Bytes
  | [], _ => []
  | m :: ms, k => if k < 2 + m.length then [] else m :: whole ms (k - (2 + m.length))

theorem cands_truncated (accept : Bytes → Bool) : ∀ (ms : List Bytes) (k f : Nat), (∀ m ∈ ms, m.length < 65536 ∧ accept m = true) →
    ((frames ms).take k).length ≤ f → cands accept f ((frames ms).take k) = some (whole ms k) := by
  intro ms
  induction ms with
  | nil => intro k f _ _; cases f <;> simp [frames, cands, whole]
  | cons m ms ih =>
    intro k f h hf
    obtain ⟨hm, ha⟩ := h m (by simp)
    obtain ⟨a, b, hb, hr⟩ := rd16_be16 m.length hm
    have e : frames (m :: ms) = a :: b :: (m ++ frames ms) := by simp [frames, frame, hb]
    have el : (frames (m :: ms)).length = 2 + m.length + (frames ms).length := by rw [e]; simp; omega
    rw [e] at hf ⊢
    match k with
    | 0 => cases f <;> simp [cands, whole]
    | 1 =>
      simp only [whole]
      rw [if_pos (by omega)]
      cases f <;> simp [cands]
    | k + 2 =>
      simp only [List.take_succ_cons, List.length_cons] at hf ⊢
      match f, hf with
      | f + 1, hf =>
        simp only [cands, hr, whole]
        by_cases hk : k < m.length
        · rw [if_pos (by simp only [List.length_take, List.length_append]; omega), if_pos (by omega)]
        · have c1 : ¬ ((m ++ frames ms).take k).length < m.length := by
            simp only [List.length_take, List.length_append]; omega
          rw [if_neg c1, if_neg (show ¬ k + 2 < 2 + m.length by omega)]
          have t1 : ((m ++ frames ms).take k).take m.length = m := by
            rw [List.take_take, Nat.min_eq_left (by omega), List.take_left']; rfl
          have t2 : ((m ++ frames ms).take k).drop m.length = (frames ms).take (k - m.length) := by
            rw [List.drop_take, List.drop_left']; rfl
          rw [t1, t2, ha, if_pos rfl, ih (k - m.length) f (fun m hm => h m (by simp [hm])) ?_]
          · rw [show k + 2 - (2 + m.length) = k - m.length from by omega]; rfl
          · simp only [List.length_take, List.length_append] at hf ⊢; omega

theorem whole_all : ∀ (ms : List Bytes) (k : Nat), (frames ms).length ≤ k → whole ms k = ms := by
  intro ms
  induction ms with
  | nil => intro k _; rfl
  | cons m ms ih =>
    intro k h
    have el : (frames (m :: ms)).length = 2 + m.length + (frames ms).length := by simp [frames, frame, be16]; omega
    simp only [whole]
    rw [if_neg (by omega), ih _ (by omega)]

theorem whole_length : ∀ (ms : List Bytes) (k : Nat), k < (frames ms).length → (whole ms k).length < ms.length := by
  intro ms
  induction ms with
  | nil => intro k h; simp [frames] at h
  | cons m ms ih =>
    intro k h
    have el : (frames (m :: ms)).length = 2 + m.length + (frames ms).length := by simp [frames, frame, be16]; omega
    simp only [whole]
    split
    · simp
    · have := ih (k - (2 + m.length)) (by omega)
      simp only [List.length_cons]; omega

theorem whole_prefix : ∀ (ms : List Bytes) (k : Nat), ∃ t, whole ms k ++ t = ms := by
  intro ms
  induction ms with
  | nil => intro k; exact ⟨[], rfl⟩
  | cons m ms ih =>
    intro k
    simp only [whole]
    split
    · exact ⟨m :: ms, rfl⟩
    · obtain ⟨t, ht⟩ := ih (k - (2 + m.length))
      exact ⟨t, by rw [List.cons_append, ht]⟩

/-- **Every truncation of a response, exactly**: cut anywhere in the answer it is an error; cut anywhere after it, it is reported as a
success with the candidates that are whole. -/
theorem truncated_exact (accept : Bytes → Bool) (ans : Bytes) (cs : List Bytes) (k : Nat) (h1 : ans.length < 65536)
    (ha : accept ans = true) (h2 : ∀ m ∈ cs, m.length < 65536 ∧ accept m = true) :
    readResponse accept ((frames (ans :: cs)).take k) =
      if k < 2 + ans.length then .err else .ok ans (whole cs (k - (2 + ans.length))) := by
  obtain ⟨a, b, hb, hr⟩ := rd16_be16 ans.length h1
  have e : frames (ans :: cs) = a :: b :: (ans ++ frames cs) := by simp [frames, frame, hb]
  rw [e]
  match k with
  | 0 => rw [if_pos (by omega)]; simp [readResponse]
  | 1 => rw [if_pos (by omega)]; simp [readResponse]
  | k + 2 =>
    simp only [List.take_succ_cons, readResponse, hr]
    by_cases hk : k < ans.length
    · rw [if_pos (by simp only [List.length_take, List.length_append]; omega), if_pos (by omega)]
    · have c1 : ¬ ((ans ++ frames cs).take k).length < ans.length := by
        simp only [List.length_take, List.length_append]; omega
      rw [if_neg c1, if_neg (show ¬ k + 2 < 2 + ans.length by omega)]
      have t1 : ((ans ++ frames cs).take k).take ans.length = ans := by
        rw [List.take_take, Nat.min_eq_left (by omega), List.take_left']; rfl
      have t2 : ((ans ++ frames cs).take k).drop ans.length = (frames cs).take (k - ans.length) := by
        rw [List.drop_take, List.drop_left']; rfl
      rw [t1, t2, ha, if_pos rfl, cands_truncated accept cs _ _ h2 (Nat.le_refl _), show k + 2 - (2 + ans.length) = k - ans.length from by omega]

/-- **A complete response yields exactly the answer and the candidates that were sent.** -/
theorem complete_exact (accept : Bytes → Bool) (ans : Bytes) (cs : List Bytes) (h1 : ans.length < 65536)
    (ha : accept ans = true) (h2 : ∀ m ∈ cs, m.length < 65536 ∧ accept m = true) :
    readResponse accept (frames (ans :: cs)) = .ok ans cs := by
  have := truncated_exact accept ans cs (frames (ans :: cs)).length h1 ha h2
  rw [List.take_length] at this
  have el : (frames (ans :: cs)).length = 2 + ans.length + (frames cs).length := by simp [frames, frame, be16]; omega
  rw [this, if_neg (by omega), whole_all _ _ (by omega)]

/-- What the other client writes (`PeerMsg.respBytes`) is read back, if no message is longer than 4094 bytes (cf. C42). -/
theorem reads_what_peer_writes_partial (accept : Bytes → Bool) (sdp : Bytes) (cs : List Bytes) (h1 : sdp.length ≤ 4094)
    (h2 : ∀ m ∈ cs, m.length ≤ 4094) (ha : accept sdp = true) (hc : ∀ m ∈ cs, accept m = true) :
    readResponse accept (respBytes sdp cs) = .ok sdp (cs.takeWhile (fun c => !c.isEmpty)) := by
  have hsub : ∀ m ∈ cs.takeWhile (fun c => !c.isEmpty), m ∈ cs := fun m hm => (List.takeWhile_sublist _).subset hm
  have : respBytes sdp cs = frames (sdp :: cs.takeWhile (fun c => !c.isEmpty)) := by
    unfold respBytes frames
    rw [List.flatMap_cons, response_framed_partial sdp h1]
    congr 1
    exact flatMap_congr' _ (fun m hm => response_framed_partial m (h2 m (hsub m hm)))
  rw [this]
  exact complete_exact accept sdp _ (by omega) ha (fun m hm => ⟨by have := h2 m (hsub m hm); omega, hc m (hsub m hm)⟩)

/-- **Violated**: a response that breaks off among the candidates is taken for a complete one - at every point after the answer, with
fewer candidates than were sent. -/
theorem truncation_unnoticed (accept : Bytes → Bool) (ans : Bytes) (cs : List Bytes) (k : Nat) (h1 : ans.length < 65536)
    (ha : accept ans = true) (h2 : ∀ m ∈ cs, m.length < 65536 ∧ accept m = true) (hk : 2 + ans.length ≤ k)
    (hl : k < (frames (ans :: cs)).length) :
    ∃ cs', readResponse accept ((frames (ans :: cs)).take k) = .ok ans cs' ∧ cs'.length < cs.length ∧ ∃ t, cs' ++ t = cs := by
  have el : (frames (ans :: cs)).length = 2 + ans.length + (frames cs).length := by simp [frames, frame, be16]; omega
  refine ⟨_, ?_, whole_length cs (k - (2 + ans.length)) (by omega), whole_prefix cs (k - (2 + ans.length))⟩
  rw [truncated_exact accept ans cs k h1 ha h2, if_neg (by omega)]

/-- Without a whole answer nothing is taken for a success. -/
theorem truncated_answer_noticed (accept : Bytes → Bool) (ans : Bytes) (cs : List Bytes) (k : Nat) (h1 : ans.length < 65536)
    (ha : accept ans = true) (h2 : ∀ m ∈ cs, m.length < 65536 ∧ accept m = true) (hk : k < 2 + ans.length) :
    readResponse accept ((frames (ans :: cs)).take k) = .err := by
  rw [truncated_exact accept ans cs k h1 ha h2, if_pos hk]

/-- libcs/client/tcpforward.go:266: the offer with its length. -/
def offerBytes (offer : Bytes) : Bytes := be16 (offer.length % 65536) ++ offer

/-- **An offer of up to 65535 bytes is sent with its length**; the other client takes it if it has at most 4096 bytes (C42). -/
theorem offer_framed (offer : Bytes) (h : offer.length < 65536) : offerBytes offer = frame offer := by
  simp [offerBytes, frame, Nat.mod_eq_of_lt h]

/-! ## Starting the forwarder -/

/-- libcs/client/tcpforward.go:135-145: the attempts to create `n` peer connections of one remote; the first failure ends it. The result says whether
the pool is complete and how many connections were created. -/
def createAll (try_ : Nat → Bool) : Nat → Nat → Bool × Nat
  | 0, made => (true, made)
  | n + 1, made => if try_ made then createAll try_ n (made + 1) else (false, made)

/-- libcs/client/client.go:532-542, libcs/client/tcpforward.go:34-41: for each remote one goroutine accepts connections - or none. The address is open in any case. -/
def accepting (n : Nat) (remotes : List (Nat → Bool)) : Bool := remotes.any (fun t => (createAll t n 0).1)

theorem createAll_spec (t : Nat → Bool) : ∀ n made, ((createAll t n made).1 = true ↔ ∀ j, made ≤ j → j < made + n → t j = true) := by
  intro n
  induction n with
  | zero => intro made; simp [createAll]; intro j h1 h2; omega
  | succ n ih =>
    intro made
    simp only [createAll]
    split
    · rename_i h
      rw [ih]
      constructor
      · intro H j h1 h2
        rcases Nat.eq_or_lt_of_le h1 with h | h
        · subst h; assumption
        · exact H j h (by omega)
      · intro H j h1 h2; exact H j (by omega) (by omega)
    · rename_i h
      constructor
      · intro H; simp at H
      · intro H; exact absurd (H made (Nat.le_refl _) (by omega)) h

/-- **Connections are accepted exactly if for some remote every peer connection could be created at the first attempt.** -/
theorem accepting_iff (configured : Nat) (remotes : List (Nat → Bool)) : accepting (poolSize configured) remotes = true ↔
    ∃ t ∈ remotes, ∀ j, j < poolSize configured → t j = true := by
  simp only [accepting, List.any_eq_true]
  constructor
  · rintro ⟨t, ht, h⟩
    exact ⟨t, ht, fun j hj => (createAll_spec t _ 0).1 h j (Nat.zero_le _) (by omega)⟩
  · rintro ⟨t, ht, h⟩
    exact ⟨t, ht, (createAll_spec t _ 0).2 (fun j _ hj => h j (by omega))⟩

/-- **Violated**: with one remote, one failed attempt - a network that is not up yet - leaves an open address at which nobody answers,
however many other peer connections could be created. -/
theorem one_failure_stops_forwarding (configured : Nat) (t : Nat → Bool) (j : Nat) (hj : j < poolSize configured) (ht : t j = false) :
    accepting (poolSize configured) [t] = false := by
  cases h : accepting (poolSize configured) [t] with
  | false => rfl
  | true =>
    obtain ⟨u, hu, H⟩ := (accepting_iff configured [t]).1 h
    simp only [List.mem_singleton] at hu
    subst hu
    rw [H j hj] at ht; cases ht

/-! ### Witnesses -/

example : accepting (poolSize 3) [fun j => j != 1] = false := one_failure_stops_forwarding 3 _ 1 (by decide) rfl
example : (createAll (fun j => j != 1) 3 0) = (false, 1) := by decide
example : accepting (poolSize 0) [fun _ => true] = true := by decide
example : readResponse (fun _ => true) (frames [[1, 2, 3], [4], [5, 6]]) = .ok [1, 2, 3] [[4], [5, 6]] := by decide
example : readResponse (fun _ => true) ((frames [[1, 2, 3], [4], [5, 6]]).take 11) = .ok [1, 2, 3] [[4]] := by decide
example : (prun { n := 3 } (oneByOne 5)).picks.reverse = [(0, 0), (0, 1), (0, 2), (0, 0), (0, 1)] := rfl

end Verif.P2P.ForwardSetup
