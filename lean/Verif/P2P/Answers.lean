import Verif.Client.PeerMsg
import Verif.Ports.Range
import Verif.AMap
set_option linter.unusedSimpArgs false
set_option linter.unusedVariables false
/-!
# C139: answers of P2P visitors reach the session they name
(libcs/client/peerproc.go:440-481 `processAnswer`, libcs/client/peer.go:474-517 `processAnswer`; 230-325 / 245-339 `process`)

A visitor that asked for an offer was told a number; it posts its answer (and its candidates) in a second request, under that
number. The request has a session of its own, which is closed when the request is over, unless it named itself.

Several requests can concern the same session, so the state that `process` leaves in the session (`PT`) matters here; the
loop itself is that of `Verif.Client.PeerMsg` (C42). The first message a session ever gets is handed to the peer as the answer,
every later one as a candidate. `acc` says what the peer accepts.

Simplified: one request at a time (`mix` at the end is about two at once); the request's own session is in the table; numbers
are not reused while the session is open (C57); release build (a panic in `process` is recovered).
-/
namespace Verif.P2P.Answers
open Verif Verif.Bufio Verif.Client.PeerMsg

/-! ## Model -/

/-- `strconv.ParseUint(idValue, 10, 32)` (libcs/client/peerproc.go:455), the loop. -/
def parseLoop : Nat → Bytes → Option Nat
  | n, [] => some n
  | n, c :: r =>
    if 48 ≤ c.toNat ∧ c.toNat ≤ 57 then
      if n * 10 + (c.toNat - 48) > 4294967295 then none else parseLoop (n * 10 + (c.toNat - 48)) r
    else none

/-- libcs/client/peerproc.go:454-458: the header `WebRTC-OP-ID`. -/
def parseID (s : Bytes) : Option Nat := if s = [] then none else parseLoop 0 s

/-- A session: what `process` keeps, whether its peer was started (`init` was called), what the peer was given: `true` as the
answer (libcs/client/peerproc.go:470-480), `false` as a candidate (libcs/client/peerproc.go:292-306). -/
structure Sess where
  pt : PT := {}
  live : Bool := true
  got : List (Bool × Bytes) := []
deriving DecidableEq, Repr

/-- How a run of the loop ended; `first`: in the last pass the session had not yet been given a message. -/
structure Res where
  ret : Ret
  first : Bool
  pt : PT
  src : Script
  outs : List (Bool × Bytes)
deriving DecidableEq, Repr

/-- libcs/client/peerproc.go:245-323: the loop; each pass handles at most one message (libcs/client/peerproc.go:286, 292). -/
def loop (h : Bool → Bytes → Bool) : Nat → PT → Script → Option Res
  | 0, _, _ => none
  | f + 1, pt, src =>
    match iter (h (!pt.inited)) pt src with
    | .ret r pt' src' out => some ⟨r, !pt.inited, pt', src', out.map (fun m => (!pt.inited, m))⟩
    | .cont pt' src' out =>
      match loop h f pt' src' with
      | none => none
      | some res => some { res with outs := out.map (fun m => (!pt.inited, m)) ++ res.outs }

/-- The status of the response (libcs/client/peerproc.go:232-235). The error of a candidate is a variable of its own
(libcs/client/peerproc.go:293 `js, err :=`), so it is not seen by the deferred function; nor is a panic, which `process` recovers: a session
without a peer has no pipe to write to. -/
def status (live : Bool) (res : Res) : Nat :=
  match res.ret with
  | .clean => 200
  | .readErr => 400
  | .tooLong => 400
  | .failed => if live = true ∧ res.first = true then 400 else 200

/-- `process` on the body of one request. -/
def feed (acc : Bool → Bytes → Bool) (s : Sess) (src : Script) : Nat × Sess :=
  match loop (fun b m => s.live && acc b m) (fuel src) s.pt src with
  | none => (0, s)
  | some res => (status s.live res, { s with pt := res.pt, got := s.got ++ res.outs })

abbrev Peers := AMap Nat Sess

/-- libcs/client/peerproc.go:440-481 `processAnswer` of the request whose own session is `own`. -/
def post (acc : Bool → Bytes → Bool) (peers : Peers) (own : Nat) (hdr : Bytes) (src : Script) : Nat × Peers :=
  match parseID hdr with
  | none => (400, peers)
  | some id =>
    match peers.get id with
    | none => (400, peers.del own)
    | some s =>
      if id = own then ((feed acc s src).1, peers.set id (feed acc s src).2)
      else ((feed acc s src).1, (peers.set id (feed acc s src).2).del own)

/-! ## Specification -/

/-- The messages `ms` as handed to a peer that already has (`i`) or has not yet got its answer. -/
def asHanded (i : Bool) : List Bytes → List (Bool × Bytes)
  | [] => []
  | m :: ms => (!i, m) :: ms.map (fun c => (false, c))

/-- The session is between two messages. -/
def Between (s : Sess) (i : Bool) : Prop := s.pt = { inited := i }

/-! ## Numbers -/

theorem parseLoop_iff (n m : Nat) (s : Bytes) (hn : n ≤ 4294967295) :
    parseLoop n s = some m ↔ ((∀ c ∈ s, Ports.Range.isDigit c) ∧ Ports.Range.val n s = m ∧ m ≤ 4294967295) := by
  induction s generalizing n with
  | nil => simp [parseLoop, Ports.Range.val_nil]; intro h; omega
  | cons a r ih =>
    simp only [parseLoop]
    by_cases hd : 48 ≤ a.toNat ∧ a.toNat ≤ 57
    · simp only [hd, and_self, if_true]
      by_cases hv : n * 10 + (a.toNat - 48) > 4294967295
      · simp only [hv, if_true]
        simp only [reduceCtorEq, false_iff]
        rintro ⟨_, h1, h2⟩
        rw [Ports.Range.val_cons] at h1
        have := Ports.Range.val_ge (n * 10 + (a.toNat - 48)) r
        omega
      · simp only [hv, if_false]
        rw [ih _ (by omega)]
        simp only [Ports.Range.val_cons, List.mem_cons, forall_eq_or_imp, Ports.Range.isDigit]
        simp [hd]
    · simp only [hd, if_false]
      simp only [reduceCtorEq, false_iff]
      rintro ⟨h1, _⟩
      exact hd (h1 a (by simp))

/-- **C139, numbers**: the header is taken exactly if it is a decimal number of at most 32 bits, and as that number. -/
theorem number_accepted (s : Bytes) (n : Nat) : parseID s = some n ↔ Ports.Range.Dec s n ∧ n < 4294967296 := by
  unfold parseID
  by_cases h : s = []
  · simp only [h, if_true]
    constructor
    · intro h; simp at h
    · rintro ⟨h, _⟩; exact absurd rfl ((Ports.Range.dec_iff _ _).1 h).1
  · simp only [h, if_false]
    rw [parseLoop_iff _ _ _ (by omega), Ports.Range.dec_iff]
    simp only [ne_eq, h, not_false_iff, true_and]
    constructor
    · rintro ⟨a, b, c⟩; exact ⟨⟨a, b⟩, by omega⟩
    · rintro ⟨⟨a, b⟩, c⟩; exact ⟨a, b, by omega⟩

example : parseID [49, 48, 55] = some 107 := by decide
example : parseID [45, 49] = none := by decide

/-! ## The loop -/

theorem handled_map (b : Bool) (l : List Bytes) : (l.map (fun m => (b, m))).map Prod.snd = l := by
  induction l with
  | nil => rfl
  | cons a l ih => simp [ih]

theorem loop_good {h : Bool → Bytes → Bool} : ∀ (f : Nat) {pt : PT} {src : Script} {res : Res}, WF pt → loop h f pt src = some res →
    WF res.pt ∧ held pt ++ bytesOf src = frames (res.outs.map Prod.snd) ++ (held res.pt ++ bytesOf res.src) ∧
    ∀ o ∈ res.outs, o.2.length ≤ 4096 := by
  intro f
  induction f with
  | zero => intro pt src res _ h; cases h
  | succ f ih =>
    intro pt src res hwf hl
    have hg := iter_good (handle := h (!pt.inited)) (src := src) hwf
    unfold loop at hl
    cases hi : iter (h (!pt.inited)) pt src with
    | ret r0 pt0 src0 out =>
      rw [hi] at hl hg
      cases hl
      refine ⟨hg.1, ?_, ?_⟩
      · rw [handled_map]; exact hg.2.1
      · intro o ho
        obtain ⟨m, hm, rfl⟩ := List.mem_map.1 ho
        exact hg.2.2 m hm
    | cont pt0 src0 out =>
      rw [hi] at hl hg
      dsimp only at hl
      cases hr : loop h f pt0 src0 with
      | none => rw [hr] at hl; cases hl
      | some q =>
        rw [hr] at hl
        cases hl
        obtain ⟨h1, h2, h3⟩ := ih hg.1 hr
        refine ⟨h1, ?_, ?_⟩
        · dsimp only
          rw [List.map_append, handled_map, hg.2.1, h2, frames_append, List.append_assoc]
        · intro o ho
          rcases List.mem_append.1 ho with ho | ho
          · obtain ⟨m, hm, rfl⟩ := List.mem_map.1 ho
            exact hg.2.2 m hm
          · exact h3 o ho

theorem loop_total {h : Bool → Bytes → Bool} : ∀ (f : Nat) (pt : PT) (src : Script), WF pt → meas pt src < f →
    ∃ res, loop h f pt src = some res := by
  intro f
  induction f with
  | zero => intro pt src _ hm; omega
  | succ f ih =>
    intro pt src hwf hm
    have hg := iter_good (handle := h (!pt.inited)) (src := src) hwf
    have hd := iter_dec (handle := h (!pt.inited)) (src := src) hwf
    unfold loop
    cases hi : iter (h (!pt.inited)) pt src with
    | ret r0 pt0 src0 out => exact ⟨_, rfl⟩
    | cont pt0 src0 out =>
      rw [hi] at hg hd
      simp only [Dec] at hd
      obtain ⟨res, hr⟩ := ih pt0 src0 hg.1 (by omega)
      dsimp only
      rw [hr]
      exact ⟨_, rfl⟩

/-- What a pass does to the session's mark, and when it fails. -/
def Tag (handle : Bytes → Bool) (pt : PT) : Outcome → Prop
  | .cont pt' _ out => (out = [] ∧ pt'.inited = pt.inited) ∨ (∃ m, out = [m] ∧ pt'.inited = true)
  | .ret r pt' _ out =>
    (r ≠ .failed ∧ ((out = [] ∧ pt'.inited = pt.inited) ∨ (∃ m, out = [m] ∧ pt'.inited = true))) ∨
    (r = .failed ∧ out = [] ∧ pt'.inited = true ∧ pt'.st = .proc ∧ handle pt'.body = false)

theorem doProc_tag {handle : Bytes → Bool} {pt : PT} {e : Option Err} {src : Script} : Tag handle pt (doProc handle pt e src) := by
  unfold doProc
  by_cases hh : handle pt.body = true
  · rw [if_pos hh]
    dsimp only
    by_cases hi : pt.inited = false
    · rw [if_pos hi]; exact Or.inr ⟨_, rfl, rfl⟩
    · rw [if_neg hi]
      split
      · exact Or.inr ⟨_, rfl, rfl⟩
      · exact Or.inl ⟨by simp, Or.inr ⟨_, rfl, rfl⟩⟩
      · exact Or.inl ⟨by simp, Or.inr ⟨_, rfl, rfl⟩⟩
  · rw [if_neg hh]
    exact Or.inr ⟨rfl, rfl, rfl, rfl, by simpa using hh⟩

theorem doBody_tag {handle : Bytes → Bool} {pt : PT} {src : Script} : Tag handle pt (doBody handle pt src) := by
  unfold doBody
  generalize srcRead src (hdrVal pt.hdr - pt.body.length) = p
  obtain ⟨bs, e, src'⟩ := p
  dsimp only
  split
  · split
    · exact Or.inl ⟨by simp, Or.inl ⟨rfl, rfl⟩⟩
    · exact Or.inl ⟨rfl, rfl⟩
  · exact doProc_tag (pt := { pt with st := .proc, body := pt.body ++ bs })

theorem doLen_tag {handle : Bytes → Bool} {pt : PT} {src : Script} : Tag handle pt (doLen handle pt src) := by
  unfold doLen
  generalize srcRead src (2 - pt.hdr.length) = p
  obtain ⟨bs, e, src'⟩ := p
  dsimp only
  split
  · split
    · split
      · exact Or.inl ⟨by simp, Or.inl ⟨rfl, rfl⟩⟩
      · exact Or.inl ⟨by simp, Or.inl ⟨rfl, rfl⟩⟩
    · exact Or.inl ⟨rfl, rfl⟩
  · split
    · exact Or.inl ⟨by simp, Or.inl ⟨rfl, rfl⟩⟩
    · exact doBody_tag (pt := { pt with st := .body, hdr := pt.hdr ++ bs })

theorem iter_tag {handle : Bytes → Bool} {pt : PT} {src : Script} : Tag handle pt (iter handle pt src) := by
  unfold iter
  split
  · exact doLen_tag
  · exact doBody_tag
  · exact doProc_tag

theorem asHanded_true (ms : List Bytes) : asHanded true ms = ms.map (fun c => (false, c)) := by cases ms <;> rfl

/-- The first message a session is given is the answer, all later ones are candidates. -/
theorem loop_tags {h : Bool → Bytes → Bool} : ∀ (f : Nat) {pt : PT} {src : Script} {res : Res}, loop h f pt src = some res →
    res.outs = asHanded pt.inited (res.outs.map Prod.snd) ∧
    (res.ret ≠ .failed → res.pt.inited = (pt.inited || !res.outs.isEmpty)) ∧
    (res.ret = .failed → res.pt.inited = true ∧ res.pt.st = .proc ∧ h res.first res.pt.body = false ∧
      res.first = !(pt.inited || !res.outs.isEmpty)) := by
  intro f
  induction f with
  | zero => intro pt src res h; cases h
  | succ f ih =>
    intro pt src res hl
    have ht := iter_tag (handle := h (!pt.inited)) (pt := pt) (src := src)
    unfold loop at hl
    cases hi : iter (h (!pt.inited)) pt src with
    | ret r0 pt0 src0 out =>
      rw [hi] at hl ht
      cases hl
      rcases ht with ⟨hr, ⟨h1, h2⟩ | ⟨m, h1, h2⟩⟩ | ⟨hr, h1, h2, h3, h4⟩
      · subst h1
        exact ⟨rfl, fun _ => by simp [h2], fun h => absurd h hr⟩
      · subst h1
        exact ⟨rfl, fun _ => by simp [h2], fun h => absurd h hr⟩
      · subst h1
        exact ⟨rfl, fun h => absurd hr h, fun _ => ⟨h2, h3, h4, by simp⟩⟩
    | cont pt0 src0 out =>
      rw [hi] at hl ht
      dsimp only at hl
      cases hr : loop h f pt0 src0 with
      | none => rw [hr] at hl; cases hl
      | some q =>
        rw [hr] at hl
        cases hl
        obtain ⟨h1, h2, h3⟩ := ih hr
        rcases ht with ⟨h4, h5⟩ | ⟨m, h4, h5⟩
        · subst h4
          rw [h5] at h1 h2 h3
          exact ⟨h1, h2, h3⟩
        · subst h4
          rw [h5] at h1 h2 h3
          rw [asHanded_true] at h1
          dsimp only
          refine ⟨?_, ?_, ?_⟩
          · simp only [List.map_cons, List.map_nil, List.cons_append, List.nil_append, asHanded]
            rw [← h1]
          · intro hne; rw [h2 hne]; simp
          · intro he
            obtain ⟨a, b, c, d⟩ := h3 he
            exact ⟨a, b, c, by rw [d]; simp⟩

/-- On a script without errors: why the loop ends. -/
theorem loop_clean {h : Bool → Bytes → Bool} : ∀ (f : Nat) {pt : PT} {src : Script} {res : Res}, WF pt → Clean src →
    loop h f pt src = some res → RetWhy (h res.first) res.pt res.src res.ret := by
  intro f
  induction f with
  | zero => intro pt src res _ _ h; cases h
  | succ f ih =>
    intro pt src res hwf hcl hl
    have hg := iter_good (handle := h (!pt.inited)) (src := src) hwf
    have hcr := iter_clean (handle := h (!pt.inited)) hwf hcl
    unfold loop at hl
    cases hi : iter (h (!pt.inited)) pt src with
    | ret r0 pt0 src0 out =>
      rw [hi] at hl hcr
      cases hl
      exact hcr
    | cont pt0 src0 out =>
      rw [hi] at hl hg hcr
      dsimp only at hl
      cases hr : loop h f pt0 src0 with
      | none => rw [hr] at hl; cases hl
      | some q =>
        rw [hr] at hl
        cases hl
        have := ih hg.1 hcr hr
        exact this

theorem mem_asHanded (i : Bool) (l : List Bytes) (b : Bytes) (r : List Bytes) :
    (!(i || !l.isEmpty), b) ∈ asHanded i (l ++ b :: r) := by
  cases l with
  | nil => simp [asHanded]
  | cons a l => simp [asHanded]

theorem isEmpty_map (l : List (Bool × Bytes)) : (l.map Prod.snd).isEmpty = l.isEmpty := by cases l <;> rfl

theorem wf_between (i : Bool) : WF { inited := i } :=
  ⟨fun _ => ⟨by simp, rfl, by simp⟩, (by intro h; cases h), (by intro h; cases h)⟩

theorem pt_ext {pt : PT} (hs : pt.st = .len) (hh : held pt = []) : pt = { inited := pt.inited } := by
  obtain ⟨st, hdr, body, ini⟩ := pt
  simp only [held, List.append_eq_nil_iff] at hh
  obtain ⟨rfl, rfl⟩ := hh
  cases hs
  rfl

/-- The loop on whole messages all of which the peer accepts. -/
theorem loop_whole {h : Bool → Bytes → Bool} (i : Bool) (ms : List Bytes) (hms : ∀ m ∈ ms, m.length ≤ 4096)
    (hacc : ∀ o ∈ asHanded i ms, h o.1 o.2 = true) (src : Script) (hc : Clean src) (hb : bytesOf src = frames ms) :
    ∃ first, loop h (fuel src) { inited := i } src = some ⟨.clean, first, { inited := i || !ms.isEmpty }, [], asHanded i ms⟩ := by
  have hwf := wf_between i
  obtain ⟨res, hp⟩ := loop_total (h := h) _ _ src hwf (meas_fuel _ src)
  obtain ⟨h1, h2, h3⟩ := loop_good _ hwf hp
  have h4 := loop_clean _ hwf hc hp
  obtain ⟨t1, t2, t3⟩ := loop_tags _ hp
  have h2' : frames ms = frames (res.outs.map Prod.snd) ++ (held res.pt ++ bytesOf res.src) := by
    rw [← hb]; simpa [held] using h2
  obtain ⟨ms', h5, h6⟩ := frames_unique ms (res.outs.map Prod.snd) _ hms
    (fun m hm => by obtain ⟨o, ho, rfl⟩ := List.mem_map.1 hm; exact h3 o ho) h2'
  have hms' : ∀ m ∈ ms', m.length ≤ 4096 := fun m hm => hms m (by rw [h5]; simp [hm])
  obtain ⟨ret, first, pt', src', outs⟩ := res
  dsimp only at *
  cases ret with
  | clean =>
    obtain ⟨h7, h8, h9⟩ := h4
    subst h7
    obtain ⟨h10, h11⟩ := incomplete_rest hms' h1 (Or.inl ⟨h8, h9⟩) (by simpa [bytesOf] using h6)
    subst h10
    rw [List.append_nil] at h5
    refine ⟨first, ?_⟩
    have hi := t2 (by simp)
    have hpt := pt_ext h8 h11
    rw [hi] at hpt
    rw [hp, t1, hpt, h5, isEmpty_map]
  | readErr =>
    obtain ⟨h7, hs, hl⟩ := h4
    subst h7
    obtain ⟨h10, h11⟩ := incomplete_rest hms' h1 (Or.inr ⟨hs, hl⟩) (by simpa [bytesOf] using h6)
    exfalso
    have hh2 := (h1.body hs).1
    unfold held at h11
    have := congrArg List.length h11
    simp only [List.length_append, List.length_nil] at this; omega
  | tooLong =>
    exfalso
    obtain ⟨h70, h7, h8⟩ := h4
    cases ms' with
    | nil =>
      have := congrArg List.length h6
      simp [frames, held] at this
      omega
    | cons m ms' =>
      have hm := hms' m List.mem_cons_self
      have e1 : frames (m :: ms') = be16 m.length ++ (m ++ frames ms') := by simp [frames, frame]
      rw [e1] at h6
      have : be16 m.length = pt'.hdr := (List.append_inj (by simpa [held] using h6) (by simpa using h7.symm)).1
      rw [← this, hdrVal_be16 (by omega)] at h8
      omega
  | failed =>
    exfalso
    obtain ⟨a, b, c, d⟩ := t3 rfl
    obtain ⟨w1, w2, w3⟩ := h1.proc b
    have hf := frame_of w1 w3
    rw [← hf] at h6
    cases ms' with
    | nil =>
      have := congrArg List.length h6
      simp [frames, frame] at this
      omega
    | cons m ms' =>
      have e1 : frames (m :: ms') = frame m ++ frames ms' := by simp [frames]
      have hb' : pt'.body.length ≤ 4096 := by omega
      obtain ⟨ms'', e2, _⟩ := frames_unique (m :: ms') [pt'.body] (bytesOf src') hms'
        (by intro x hx; simp only [List.mem_singleton] at hx; subst hx; exact hb') (by simpa [frames] using h6)
      have hm : m = pt'.body := by simpa using (List.cons.inj e2).1
      have hmem := mem_asHanded i (outs.map Prod.snd) m ms'
      rw [← h5, isEmpty_map] at hmem
      have := hacc _ hmem
      rw [← d, hm] at this
      dsimp only at this
      rw [this] at c
      cases c

/-! ## Theorems -/

/-- **C139, a whole post is handed over**: to a session between two messages, with a peer, a post of whole messages that the peer
accepts, however it is cut, is answered with 200, and exactly these messages are handed to the peer, in order; the very first
one as the answer. The session is again between two messages. -/
theorem whole_post_handed (acc : Bool → Bytes → Bool) (s : Sess) (i : Bool) (hs : Between s i) (hl : s.live = true)
    (ms : List Bytes) (hms : ∀ m ∈ ms, m.length ≤ 4096) (hacc : ∀ o ∈ asHanded i ms, acc o.1 o.2 = true)
    (src : Script) (hc : Clean src) (hb : bytesOf src = frames ms) :
    (feed acc s src).1 = 200 ∧ (feed acc s src).2.got = s.got ++ asHanded i ms ∧ Between (feed acc s src).2 (i || !ms.isEmpty) ∧
    (feed acc s src).2.live = true := by
  unfold Between at hs
  obtain ⟨first, h⟩ := loop_whole (h := fun b m => s.live && acc b m) i ms hms (by intro o ho; simp [hl, hacc o ho]) src hc hb
  rw [← hs] at h
  unfold feed
  rw [h]
  exact ⟨rfl, rfl, rfl, hl⟩

/-- A message that was handed over was accepted. -/
theorem handed_accepted {h : Bool → Bytes → Bool} : ∀ (f : Nat) {pt : PT} {src : Script} {res : Res}, loop h f pt src = some res →
    ∀ o ∈ res.outs, h o.1 o.2 = true := by
  intro f
  induction f with
  | zero => intro pt src res h; cases h
  | succ f ih =>
    intro pt src res hl
    have ha : ∀ (hd : Bytes → Bool) (pt : PT) (e : Option Err) (src : Script), match doProc hd pt e src with
        | .cont _ _ out => ∀ m ∈ out, hd m = true
        | .ret _ _ _ out => ∀ m ∈ out, hd m = true := by
      intro hd pt e src
      unfold doProc
      by_cases hh : hd pt.body = true
      · rw [if_pos hh]
        dsimp only
        have hm' : ∀ m ∈ [pt.body], hd m = true := by
          intro m hm; simp only [List.mem_singleton] at hm; subst hm; exact hh
        by_cases hi : pt.inited = false
        · rw [if_pos hi]; exact hm'
        · rw [if_neg hi]
          cases e with
          | none => exact hm'
          | some e => cases e <;> exact hm'
      · rw [if_neg hh]; simp
    have hb : ∀ (hd : Bytes → Bool) (pt : PT) (src : Script), match doBody hd pt src with
        | .cont _ _ out => ∀ m ∈ out, hd m = true
        | .ret _ _ _ out => ∀ m ∈ out, hd m = true := by
      intro hd pt src
      unfold doBody
      generalize srcRead src (hdrVal pt.hdr - pt.body.length) = p
      obtain ⟨bs, e, src'⟩ := p
      dsimp only
      by_cases hc : (pt.body ++ bs).length ≠ hdrVal pt.hdr
      · rw [if_pos hc]; cases e <;> simp
      · rw [if_neg hc]; exact ha hd _ _ _
    have hi : ∀ (hd : Bytes → Bool) (pt : PT) (src : Script), match iter hd pt src with
        | .cont _ _ out => ∀ m ∈ out, hd m = true
        | .ret _ _ _ out => ∀ m ∈ out, hd m = true := by
      intro hd pt src
      unfold iter
      cases pt.st with
      | body => exact hb hd _ _
      | proc => exact ha hd _ _ _
      | len =>
        dsimp only
        unfold doLen
        generalize srcRead src (2 - pt.hdr.length) = p
        obtain ⟨bs, e, src'⟩ := p
        dsimp only
        by_cases hc : (pt.hdr ++ bs).length ≠ 2
        · rw [if_pos hc]
          cases e with
          | none => simp
          | some e => dsimp only; by_cases he : e = .eof ∨ e = unexpectedEOF <;> simp [he]
        · rw [if_neg hc]
          by_cases ht : hdrVal (pt.hdr ++ bs) > 4096
          · rw [if_pos ht]; simp
          · rw [if_neg ht]; exact hb hd _ _
    have := hi (h (!pt.inited)) pt src
    unfold loop at hl
    cases hi : iter (h (!pt.inited)) pt src with
    | ret r0 pt0 src0 out =>
      rw [hi] at hl this
      cases hl
      intro o ho
      obtain ⟨m, hm, rfl⟩ := List.mem_map.1 ho
      exact this m hm
    | cont pt0 src0 out =>
      rw [hi] at hl this
      dsimp only at hl
      cases hr : loop h f pt0 src0 with
      | none => rw [hr] at hl; cases hl
      | some q =>
        rw [hr] at hl
        cases hl
        intro o ho
        rcases List.mem_append.1 ho with ho | ho
        · obtain ⟨m, hm, rfl⟩ := List.mem_map.1 ho
          exact this m hm
        · exact ih hr o ho

/-- The next message of the stream, in any state the loop leaves behind: either the peer accepts it, and then it is the next
thing the peer is given; or it does not, and then nothing more is given and the message stays. -/
theorem next_message {h : Bool → Bytes → Bool} {pt : PT} (hwf : WF pt) {src : Script} (hc : Clean src) {x tail : Bytes}
    (hx : x.length ≤ 4096) (hb : held pt ++ bytesOf src = frame x ++ tail) :
    ∃ res, loop h (fuel src) pt src = some res ∧
      (h (!pt.inited) x = true → ∃ os, res.outs = (!pt.inited, x) :: os) ∧
      (h (!pt.inited) x = false → res.ret = .failed ∧ res.first = !pt.inited ∧ res.outs = [] ∧
        res.pt = { st := .proc, hdr := be16 x.length, body := x, inited := true }) := by
  obtain ⟨res, hp⟩ := loop_total (h := h) _ _ src hwf (meas_fuel _ src)
  obtain ⟨h1, h2, h3⟩ := loop_good _ hwf hp
  have h4 := loop_clean _ hwf hc hp
  obtain ⟨t1, t2, t3⟩ := loop_tags _ hp
  refine ⟨res, hp, ?_⟩
  obtain ⟨ret, first, pt', src', outs⟩ := res
  dsimp only at *
  have key : frames [x] ++ tail = frames (outs.map Prod.snd) ++ (held pt' ++ bytesOf src') := by
    rw [← h2, hb]; simp [frames]
  have hsp := frames_prefix [x] (outs.map Prod.snd) tail _ (by intro m hm; simp only [List.mem_singleton] at hm; subst hm; exact hx)
    (fun m hm => by obtain ⟨o, ho, rfl⟩ := List.mem_map.1 hm; exact h3 o ho) key
  cases outs with
  | cons o os =>
    have ho : o = (!pt.inited, x) := by
      have e1 : o.2 = x := by
        rcases hsp with ⟨ms', e, _⟩ | ⟨o', os', e, _⟩
        · simpa using (List.cons.inj e).1.symm
        · simpa using (List.cons.inj e).1
      have e2 : o.1 = !pt.inited := by
        have := congrArg List.head? t1
        simp only [List.map_cons, asHanded, List.head?_cons, Option.some.injEq] at this
        rw [this]
      rw [← e1, ← e2]
    subst ho
    refine ⟨fun _ => ⟨os, rfl⟩, fun hf => ?_⟩
    exfalso
    have hh := @handed_accepted h
    have := hh _ hp (!pt.inited, x) List.mem_cons_self
    dsimp only at this
    rw [hf] at this
    cases this
  | nil =>
    have e : held pt' ++ bytesOf src' = be16 x.length ++ (x ++ tail) := by
      simpa [frames, frame] using key.symm
    cases ret with
    | clean =>
      exfalso
      obtain ⟨h7, h8, h9⟩ := h4
      subst h7
      have hbd := (h1.len h8).2.1
      have := congrArg List.length e
      simp [held, hbd, bytesOf] at this
      omega
    | readErr =>
      exfalso
      obtain ⟨h7, h8, h9⟩ := h4
      subst h7
      have hh := (h1.body h8).1
      rw [held, List.append_assoc] at e
      obtain ⟨e1, e2⟩ := List.append_inj e (by simpa using hh)
      rw [e1, hdrVal_be16 (by omega)] at h9
      have := congrArg List.length e2
      simp [bytesOf] at this
      omega
    | tooLong =>
      exfalso
      obtain ⟨h7, h8, h9⟩ := h4
      rw [held, List.append_assoc] at e
      obtain ⟨e1, e2⟩ := List.append_inj e (by simpa using h8)
      rw [e1, hdrVal_be16 (by omega)] at h9
      omega
    | failed =>
      obtain ⟨a, b, c, d⟩ := t3 rfl
      obtain ⟨w1, w2, w3⟩ := h1.proc b
      rw [held, List.append_assoc] at e
      obtain ⟨e1, e2⟩ := List.append_inj e (by simpa using w1)
      rw [e1, hdrVal_be16 (by omega)] at w3
      have e3 := (List.append_inj e2 w3).1
      have hd : first = !pt.inited := by rw [d]; simp
      refine ⟨fun ht => ?_, fun _ => ⟨rfl, hd, rfl, ?_⟩⟩
      · exfalso; rw [hd, e3, ht] at c; cases c
      · obtain ⟨st, hdr, body, ini⟩ := pt'
        dsimp only at a b e1 e3
        subst a b e1 e3
        rfl

theorem dec_fun {s : Bytes} {a b : Nat} (ha : Ports.Range.Dec s a) (hb : Ports.Range.Dec s b) : a = b := by
  rw [Ports.Range.dec_iff] at ha hb
  rw [← ha.2.2, ← hb.2.2]

theorem post_to (acc : Bool → Bytes → Bool) {peers : Peers} {own id : Nat} {hdr : Bytes} {s : Sess} (src : Script)
    (hd : Ports.Range.Dec hdr id) (hid : id < 4294967296) (hs : peers.get id = some s) (hne : own ≠ id) :
    (post acc peers own hdr src).1 = (feed acc s src).1 ∧ (post acc peers own hdr src).2.get id = some (feed acc s src).2 := by
  have hp := (number_accepted hdr id).2 ⟨hd, hid⟩
  unfold post
  rw [hp]
  dsimp only
  rw [hs]
  dsimp only
  rw [if_neg (fun h => hne h.symm)]
  refine ⟨rfl, ?_⟩
  rw [AMap.get_del, if_neg (fun h => hne (by first | exact h | exact h.symm)), AMap.get_set_self]

/-- **C139, posts stay with the session they name**: whatever a request contains, it leaves every session alone that it does not
name, except its own. -/
theorem others_undisturbed (acc : Bool → Bytes → Bool) (peers : Peers) (own : Nat) (hdr : Bytes) (src : Script) (k : Nat)
    (hk : k ≠ own) (hn : ¬ Ports.Range.Dec hdr k) : (post acc peers own hdr src).2.get k = peers.get k := by
  unfold post
  cases hp : parseID hdr with
  | none => rfl
  | some id =>
    have hd := ((number_accepted _ _).1 hp).1
    have hki : id ≠ k := fun h => hn (h ▸ hd)
    dsimp only
    cases hg : peers.get id with
    | none =>
      dsimp only
      rw [AMap.get_del, if_neg (by intro h; first | exact hk h | exact hk h.symm)]
    | some s =>
      dsimp only
      split
      · rw [AMap.get_set_ne _ _ hki]
      · rw [AMap.get_del, if_neg (by intro h; first | exact hk h | exact hk h.symm), AMap.get_set_ne _ _ hki]

/-- **C139, unknown numbers are refused**, and no session is given anything. -/
theorem unknown_refused (acc : Bool → Bytes → Bool) (peers : Peers) (own : Nat) (hdr : Bytes) (src : Script)
    (hn : ∀ n, Ports.Range.Dec hdr n → n < 4294967296 → peers.get n = none) :
    (post acc peers own hdr src).1 = 400 ∧ ∀ k, k ≠ own → (post acc peers own hdr src).2.get k = peers.get k := by
  unfold post
  cases hp : parseID hdr with
  | none => exact ⟨rfl, fun _ _ => rfl⟩
  | some id =>
    obtain ⟨h1, h2⟩ := (number_accepted _ _).1 hp
    dsimp only
    rw [hn id h1 h2]
    refine ⟨rfl, fun k hk => ?_⟩
    dsimp only
    rw [AMap.get_del, if_neg (by intro h; first | exact hk h | exact hk h.symm)]

/-- A request as sent: its own session, its header, its body, and the messages the sender meant. -/
structure Sent where
  own : Nat
  hdr : Bytes
  src : Script
  ms : List Bytes

/-- One request after the other. -/
def posts (acc : Bool → Bytes → Bool) (peers : Peers) (ps : List Sent) : Peers :=
  ps.foldl (fun q p => (post acc q p.own p.hdr p.src).2) peers

/-- The messages that were sent to a session. -/
inductive SentTo (id : Nat) : List Sent → List Bytes → Prop where
  | nil : SentTo id [] []
  | this {p ps ms} : Ports.Range.Dec p.hdr id → SentTo id ps ms → SentTo id (p :: ps) (p.ms ++ ms)
  | other {p ps ms} : ¬ Ports.Range.Dec p.hdr id → SentTo id ps ms → SentTo id (p :: ps) ms

theorem asHanded_append (i : Bool) (a b : List Bytes) : asHanded i (a ++ b) = asHanded i a ++ asHanded (i || !a.isEmpty) b := by
  cases a with
  | nil => simp [asHanded]
  | cons x a =>
    have e : (i || !(x :: a).isEmpty) = true := by simp
    rw [e, asHanded_true]; simp [asHanded]

/-- **C139**: whatever else is sent to whomever in between, a session whose own posts are whole is given exactly the messages of
these posts, in order, the first as the answer. -/
theorem posts_handed_partial (acc : Bool → Bytes → Bool) (id : Nat) (hid : id < 4294967296) : ∀ (ps : List Sent) (peers : Peers) (s : Sess)
    (i : Bool) (ms : List Bytes), peers.get id = some s → Between s i → s.live = true → SentTo id ps ms →
    (∀ p ∈ ps, p.own ≠ id ∧ (Ports.Range.Dec p.hdr id → Clean p.src ∧ bytesOf p.src = frames p.ms ∧ ∀ m ∈ p.ms, m.length ≤ 4096)) →
    (∀ o ∈ asHanded i ms, acc o.1 o.2 = true) →
    ∃ s', (posts acc peers ps).get id = some s' ∧ s'.got = s.got ++ asHanded i ms ∧ Between s' (i || !ms.isEmpty) ∧ s'.live = true := by
  intro ps
  induction ps with
  | nil =>
    intro peers s i ms hs hb hl hms _ _
    cases hms
    exact ⟨s, hs, by simp [asHanded], by simpa using hb, hl⟩
  | cons p ps ih =>
    intro peers s i ms hs hb hl hms hp hacc
    have hp1 := hp p List.mem_cons_self
    have hp2 : ∀ q ∈ ps, q.own ≠ id ∧ (Ports.Range.Dec q.hdr id → Clean q.src ∧ bytesOf q.src = frames q.ms ∧ ∀ m ∈ q.ms, m.length ≤ 4096) :=
      fun q hq => hp q (List.mem_cons_of_mem _ hq)
    cases hms with
    | other hn h =>
      have := others_undisturbed acc peers p.own p.hdr p.src id (fun h => hp1.1 h.symm) hn
      exact ih _ s i ms (by rw [this]; exact hs) hb hl h hp2 hacc
    | @this _ _ ms2 hd h =>
      obtain ⟨hc, hby, hlen⟩ := hp1.2 hd
      rw [asHanded_append] at hacc
      obtain ⟨_, h2, h3, h4⟩ := whole_post_handed acc s i hb hl p.ms hlen
        (fun o ho => hacc o (List.mem_append_left _ ho)) p.src hc hby
      have hg := (post_to acc p.src hd hid hs hp1.1).2
      obtain ⟨s', a1, a2, a3, a4⟩ := ih _ _ _ ms2 hg h3 h4 h hp2 (fun o ho => hacc o (List.mem_append_right _ ho))
      refine ⟨s', a1, ?_, ?_, a4⟩
      · rw [a2, h2, asHanded_append, List.append_assoc]
      · have e : (i || !(p.ms ++ ms2).isEmpty) = (i || !p.ms.isEmpty || !ms2.isEmpty) := by
          cases p.ms <;> cases i <;> simp
        rw [e]; exact a3

/-- A session that waits for its answer, posts of its visitor, of another visitor, and nonsense in between. -/
example : ∃ s', (posts (fun _ _ => true) [(5, {}), (6, {})]
      [⟨7, [53], [([0, 2], none), ([9, 9], none)], [[9, 9]]⟩, ⟨8, [54], [([1, 2, 3], some (.other 3))], []⟩,
       ⟨9, [53], [([0, 1, 4], none)], [[4]]⟩]).get 5 = some s' ∧ s'.got = [(true, [9, 9]), (false, [4])] := by
  exact ⟨⟨{ inited := true }, true, [(true, [9, 9]), (false, [4])]⟩, by decide +kernel, rfl⟩

/-! ### Where it fails -/

/-- (violation) **An interrupted post cannot be repeated.** The connection breaks after `j` bytes of the answer `m` (400). The same
answer, sent again whole, is appended to the part already there: what is given to the peer as the answer is the beginning of
`m` followed by the beginning of the second post, length bytes included. -/
theorem retry_is_garbled (acc : Bool → Bytes → Bool) (s : Sess) (i : Bool) (hs : Between s i) (hl : s.live = true) (m : Bytes)
    (hm : m.length ≤ 4096) (j : Nat) (hj : 0 < j) (hj' : j < m.length) (e : Err) (src2 : Script) (hc : Clean src2)
    (hb : bytesOf src2 = frame m) (ha : acc (!i) (m.take j ++ (frame m).take (m.length - j)) = true) :
    (feed acc s [(be16 m.length ++ m.take j, none), ([], some e)]).1 = 400 ∧
    (feed acc s [(be16 m.length ++ m.take j, none), ([], some e)]).2.got = s.got ∧
    ∃ os, (feed acc (feed acc s [(be16 m.length ++ m.take j, none), ([], some e)]).2 src2).2.got =
      s.got ++ (!i, m.take j ++ (frame m).take (m.length - j)) :: os := by
  unfold Between at hs
  have hjl : (m.take j).length = j := by simp; omega
  have h1 : feed acc s [(be16 m.length ++ m.take j, none), ([], some e)] =
      (400, { s with pt := { st := .body, hdr := be16 m.length, body := m.take j, inited := i } }) := by
    unfold feed
    have hf : fuel [(be16 m.length ++ m.take j, none), ([], some e)] = (2 * (2 + j) + 2) + 1 + 1 := by
      simp [fuel, bytesOf, hjl] <;> omega
    rw [hf, hs]
    have hv : hdrVal (be16 m.length) = m.length := hdrVal_be16 (by omega)
    have i1 : ∀ h : Bytes → Bool, iter h { inited := i } [(be16 m.length ++ m.take j, none), ([], some e)] =
        .cont { st := .body, hdr := be16 m.length, body := m.take j, inited := i } [([], some e)] [] := by
      intro h
      have r1 : srcRead [(be16 m.length ++ m.take j, none), ([], some e)] (2 - 0) =
          (be16 m.length, none, [(m.take j, none), ([], some e)]) := by
        rw [srcRead, if_neg (by simp only [List.length_append, be16_length, hjl]; omega)]
        rw [List.take_left' (by simp), List.drop_left' (by simp)]
      have r2 : srcRead [(m.take j, none), ([], some e)] (m.length - 0) = (m.take j, none, [([], some e)]) := by
        rw [srcRead, if_pos (by omega)]
      unfold iter
      dsimp only
      unfold doLen
      dsimp only [List.length_nil]
      rw [r1]
      dsimp only [List.nil_append]
      rw [if_neg (by simp), if_neg (by rw [hv]; omega)]
      unfold doBody
      dsimp only [List.length_nil]
      rw [hv, r2]
      dsimp only [List.nil_append]
      rw [if_pos (by omega)]
    have i2 : ∀ h : Bytes → Bool, iter h { st := .body, hdr := be16 m.length, body := m.take j, inited := i } [([], some e)] =
        .ret .readErr { st := .body, hdr := be16 m.length, body := m.take j, inited := i } [] [] := by
      intro h
      unfold iter
      dsimp only
      unfold doBody
      dsimp only
      rw [srcRead]
      rw [if_pos (show ([] : Bytes).length ≤ hdrVal (be16 m.length) - (m.take j).length from Nat.zero_le _)]
      dsimp only
      rw [List.append_nil, if_pos (by rw [hv]; omega)]
    unfold loop
    rw [i1]
    dsimp only
    unfold loop
    rw [i2]
    simp [status]
  rw [h1]
  refine ⟨rfl, rfl, ?_⟩
  have hwf : WF { st := .body, hdr := be16 m.length, body := m.take j, inited := i } :=
    ⟨(by intro h; cases h), fun _ => ⟨by simp, by rw [hdrVal_be16 (by omega)]; exact hm, by rw [hdrVal_be16 (by omega)]; show (m.take j).length ≤ m.length; omega⟩, (by intro h; cases h)⟩
  have hfl : (frame m).length = m.length + 2 := by simp [frame]; omega
  have hxl : (m.take j ++ (frame m).take (m.length - j)).length = m.length := by
    rw [List.length_append, hjl, List.length_take, hfl]; omega
  obtain ⟨res, hp, hy, _⟩ := next_message (h := fun b m => s.live && acc b m) hwf hc
    (x := m.take j ++ (frame m).take (m.length - j)) (tail := (frame m).drop (m.length - j)) (by omega) (by
      unfold held
      rw [hb]
      rw [show frame (m.take j ++ (frame m).take (m.length - j)) = be16 m.length ++ (m.take j ++ (frame m).take (m.length - j)) from by
        rw [frame, hxl]]
      simp only [List.append_assoc, List.take_append_drop])
  obtain ⟨os, ho⟩ := hy (by simp [hl, ha])
  refine ⟨os, ?_⟩
  unfold feed
  dsimp only
  rw [hp]
  dsimp only
  rw [ho]

/-- With "ab" sent, cut after the first byte and sent again, the peer is given "a" and a zero byte. -/
example : (feed (fun _ _ => true) (feed (fun _ _ => true) {} [([0, 2, 97], none), ([], some (.other 1))]).2 [([0, 2, 97, 98], none)]).2.got =
    [(true, [97, 0])] := by decide +kernel

/-- What a refused message leaves behind. -/
def Stuck (s : Sess) (m : Bytes) : Prop := s.pt = { st := .proc, hdr := be16 m.length, body := m, inited := true }

/-- The peer refuses the next message: nothing of the post is handed over, and the message stays in the session. An answer is
answered with 400, a candidate with 200. -/
theorem refused (acc : Bool → Bytes → Bool) (s : Sess) (i : Bool) (hs : Between s i) (hl : s.live = true) (m : Bytes)
    (hm : m.length ≤ 4096) (ha : acc (!i) m = false) (rest : Bytes) (src : Script) (hc : Clean src) (hb : bytesOf src = frame m ++ rest) :
    (feed acc s src).1 = (if i then 200 else 400) ∧ (feed acc s src).2.got = s.got ∧ Stuck (feed acc s src).2 m ∧
    (feed acc s src).2.live = true := by
  unfold Between at hs
  obtain ⟨res, hp, _, hn⟩ := next_message (h := fun b m => s.live && acc b m) (wf_between i) hc hm (x := m) (tail := rest)
    (by simpa [held] using hb)
  obtain ⟨h1, h2, h3, h4⟩ := hn (by simp [ha])
  rw [← hs] at hp
  unfold feed
  rw [hp]
  dsimp only
  rw [h3, h4]
  refine ⟨?_, by simp, rfl, hl⟩
  unfold status
  rw [h1, h2]
  cases i <;> simp [hl]

/-- (violation) **A candidate that the peer refuses is reported as a success**, and whatever follows it in the same post is lost. -/
theorem bad_candidate_reported_good (acc : Bool → Bytes → Bool) (s : Sess) (hs : Between s true) (hl : s.live = true) (m : Bytes)
    (hm : m.length ≤ 4096) (ha : acc false m = false) (rest : Bytes) (src : Script) (hc : Clean src) (hb : bytesOf src = frame m ++ rest) :
    (feed acc s src).1 = 200 ∧ (feed acc s src).2.got = s.got := by
  obtain ⟨h1, h2, _⟩ := refused acc s true hs hl m hm ha rest src hc hb
  exact ⟨h1, h2⟩

/-- (violation) **A refused answer cannot be replaced.** After an answer that the peer refuses (400), every later post, whatever it
contains, hands the peer the refused text again, as a candidate; if that is refused too, the post is answered with 200 and
nothing of it is handed over, for ever. -/
theorem refused_answer_stays (acc : Bool → Bytes → Bool) (s : Sess) (m : Bytes) (hs : Stuck s m) (hl : s.live = true) (ha : acc false m = false)
    (srcs : List Script) :
    (srcs.foldl (fun s src => (feed acc s src).2) s).got = s.got ∧
    ∀ src, (feed acc (srcs.foldl (fun s src => (feed acc s src).2) s) src).1 = 200 := by
  have one : ∀ src : Script, feed acc s src = (200, s) := by
    intro src
    obtain ⟨pt, live, got⟩ := s
    unfold Stuck at hs
    dsimp only at hs hl
    subst hs hl
    unfold feed fuel loop iter
    simp [doProc, ha, status]
  have all : srcs.foldl (fun s src => (feed acc s src).2) s = s := by
    induction srcs with
    | nil => rfl
    | cons a l ih => rw [List.foldl_cons, one]; exact ih
  rw [all]
  exact ⟨rfl, fun src => by rw [one]⟩

/-- An answer "7" is refused; the better answer "8" is never handed over, and its sender is told that all is well. -/
example : (feed (fun _ m => m != [7]) (feed (fun _ m => m != [7]) {} [([0, 1, 7], none)]).2 [([0, 1, 8], none)]) =
    (200, ⟨{ st := .proc, hdr := [0, 1], body := [7], inited := true }, true, []⟩) := by decide +kernel

/-- (violation) **One message that is too long makes a session useless**: the post is refused, as it should be, and so is every later
one, whatever it contains. -/
theorem oversize_blocks (acc : Bool → Bytes → Bool) (s : Sess) (i : Bool) (hs : Between s i) (n : Nat) (hn : 4096 < n) (hn' : n < 65536)
    (rest : Bytes) (src : Script) (hc : Clean src) (hb : bytesOf src = be16 n ++ rest) :
    (feed acc s src).1 = 400 ∧ (feed acc s src).2.got = s.got ∧
    ∀ src2 : Script, (feed acc (feed acc s src).2 src2).1 = 400 ∧ (feed acc (feed acc s src).2 src2).2 = (feed acc s src).2 := by
  unfold Between at hs
  have hwf := wf_between i
  obtain ⟨res, hp⟩ := loop_total (h := fun b m => s.live && acc b m) _ _ src hwf (meas_fuel _ src)
  obtain ⟨h1, h2, h3⟩ := loop_good _ hwf hp
  have h4 := loop_clean _ hwf hc hp
  obtain ⟨t1, t2, t3⟩ := loop_tags _ hp
  have key : be16 n ++ rest = frames (res.outs.map Prod.snd) ++ (held res.pt ++ bytesOf res.src) := by
    rw [← h2, hb]; simp [held]
  obtain ⟨ret, first, pt', src', outs⟩ := res
  dsimp only at *
  have ho : outs = [] := by
    cases outs with
    | nil => rfl
    | cons o os =>
      exfalso
      have hol := h3 o List.mem_cons_self
      have e : be16 n ++ rest = be16 o.2.length ++ (o.2 ++ frames (os.map Prod.snd) ++ (held pt' ++ bytesOf src')) := by
        rw [key]; simp [frames, frame]
      have := (List.append_inj e (by simp)).1
      have hv := hdrVal_be16 hn'
      rw [this, hdrVal_be16 (by omega)] at hv
      omega
  subst ho
  have e : held pt' ++ bytesOf src' = be16 n ++ rest := by simpa [frames] using key.symm
  have hbad : ∀ (hl : pt'.hdr.length = 2), pt'.hdr = be16 n := by
    intro hl
    rw [held, List.append_assoc] at e
    exact (List.append_inj e (by simpa using hl)).1
  have hr : ret = .tooLong ∧ pt'.st = .len ∧ pt'.hdr = be16 n := by
    cases ret with
    | clean =>
      exfalso
      obtain ⟨h7, h8, h9⟩ := h4
      subst h7
      have hbd := (h1.len h8).2.1
      have := congrArg List.length e
      simp [held, hbd, bytesOf] at this
      omega
    | readErr =>
      exfalso
      obtain ⟨h7, h8, h9⟩ := h4
      have w := (h1.body h8)
      rw [hbad w.1, hdrVal_be16 hn'] at w
      omega
    | tooLong => exact ⟨rfl, h4.1, hbad h4.2.1⟩
    | failed =>
      exfalso
      obtain ⟨a, b, c, d⟩ := t3 rfl
      have w := h1.proc b
      rw [hbad w.1, hdrVal_be16 hn'] at w
      omega
  obtain ⟨r1, r2, r3⟩ := hr
  have hf : feed acc s src = (400, { s with pt := pt' }) := by
    unfold feed
    rw [hs, hp, r1]
    simp [status]
  rw [hf]
  refine ⟨rfl, rfl, fun src2 => ?_⟩
  have hbody := (h1.len r2).2.1
  have one : ∀ h : Bytes → Bool, ∃ src3, iter h pt' src2 = .ret .tooLong pt' src3 [] := by
    intro h
    unfold iter
    rw [r2]
    dsimp only
    unfold doLen
    have h0 : ∃ e src3, srcRead src2 (2 - pt'.hdr.length) = ([], e, src3) := by
      rw [r3]
      have : 2 - (be16 n).length = 0 := by simp
      rw [this]
      cases src2 with
      | nil => exact ⟨_, _, rfl⟩
      | cons c r =>
        obtain ⟨bs, e⟩ := c
        rw [srcRead]
        split
        · rename_i hz
          have : bs = [] := List.length_eq_zero_iff.1 (by omega)
          subst this
          exact ⟨_, _, rfl⟩
        · exact ⟨_, _, rfl⟩
    obtain ⟨e, src3, h0⟩ := h0
    rw [h0]
    dsimp only
    rw [List.append_nil, if_neg (by rw [r3]; simp), if_pos (by rw [r3, hdrVal_be16 hn']; exact hn)]
    exact ⟨src3, rfl⟩
  obtain ⟨src3, ho⟩ := one (fun m => s.live && acc (!pt'.inited) m)
  unfold feed fuel loop
  dsimp only
  rw [ho]
  simp [status]

example : (feed (fun _ _ => true) (feed (fun _ _ => true) {} [([16, 1], none)]).2 [([0, 1, 8], none)]).1 = 400 := by decide +kernel

/-- (violation) **A request that names itself is told that all is well**, although there is no peer and nothing is handed over. -/
theorem own_number_reported_good (acc : Bool → Bytes → Bool) (s : Sess) (i : Bool) (hs : Between s i) (hl : s.live = false) (m : Bytes)
    (hm : m.length ≤ 4096) (rest : Bytes) (src : Script) (hc : Clean src) (hb : bytesOf src = frame m ++ rest) :
    (feed acc s src).1 = 200 ∧ (feed acc s src).2.got = s.got := by
  unfold Between at hs
  obtain ⟨res, hp, _, hn⟩ := next_message (h := fun b m => s.live && acc b m) (wf_between i) hc hm (x := m) (tail := rest)
    (by simpa [held] using hb)
  obtain ⟨h1, h2, h3, h4⟩ := hn (by simp [hl])
  rw [← hs] at hp
  unfold feed
  rw [hp]
  dsimp only
  rw [h3]
  refine ⟨?_, by simp⟩
  unfold status
  rw [h1]
  simp [hl]

/-- (violation) **Anyone can answer for anyone**: what a post does to the session it names does not depend on who sends it. (The
numbers are counted up by the server, C14, so they can be guessed.) -/
theorem anyone_can_answer (acc : Bool → Bytes → Bool) (peers : Peers) (own own' id : Nat) (hdr : Bytes) (src : Script)
    (hd : Ports.Range.Dec hdr id) (h : own ≠ id) (h' : own' ≠ id) :
    (post acc peers own hdr src).1 = (post acc peers own' hdr src).1 ∧
    (post acc peers own hdr src).2.get id = (post acc peers own' hdr src).2.get id := by
  unfold post
  cases hp : parseID hdr with
  | none => exact ⟨rfl, rfl⟩
  | some k =>
    have hk : k = id := dec_fun ((number_accepted _ _).1 hp).1 hd
    subst hk
    dsimp only
    cases hg : peers.get k with
    | none =>
      dsimp only
      rw [AMap.get_del, AMap.get_del, if_neg (by intro e; first | exact h e | exact h e.symm), if_neg (by intro e; first | exact h' e | exact h' e.symm)]
      exact ⟨rfl, rfl⟩
    | some s =>
      dsimp only
      rw [if_neg (fun e => h e.symm), if_neg (fun e => h' e.symm)]
      dsimp only
      rw [AMap.get_del, AMap.get_del, if_neg (by intro e; first | exact h e | exact h e.symm), if_neg (by intro e; first | exact h' e | exact h' e.symm)]
      exact ⟨rfl, rfl⟩

/-! ### Two requests at once -/

/-- Two requests for the same session, pass by pass (`true`: the first one); a request that has returned does nothing. Nothing keeps
them apart: both run the loop on the same session (libcs/client/peerproc.go:463-469). -/
def mix (h : Bool → Bytes → Bool) : List Bool → PT → Option Script → Option Script → List (Bool × Bytes)
  | [], _, _, _ => []
  | w :: ws, pt, a, b =>
    match (if w then a else b) with
    | none => mix h ws pt a b
    | some src =>
      match iter (h (!pt.inited)) pt src with
      | .ret _ pt' _ out => out.map (fun m => (!pt.inited, m)) ++ mix h ws pt' (if w then none else a) (if w then b else none)
      | .cont pt' src' out =>
        out.map (fun m => (!pt.inited, m)) ++ mix h ws pt' (if w then some src' else a) (if w then b else some src')

/-- (violation) **Two posts at once are mixed**: the peer is given as the answer a text that nobody sent. -/
theorem posts_at_once_mix : ∃ (a b : Script) (x y : Bytes) (ws : List Bool), Clean a ∧ Clean b ∧ bytesOf a = frame x ∧ bytesOf b = frame y ∧
    ∃ z os, mix (fun _ _ => true) ws {} (some a) (some b) = (true, z) :: os ∧ z ≠ x ∧ z ≠ y :=
  ⟨[([0, 2, 7], none), ([7], none)], [([0, 2, 8, 8], none)], [7, 7], [8, 8], [true, false],
    (by intro c hc; simp at hc; rcases hc with rfl | rfl <;> simp), (by intro c hc; simp at hc; subst hc; simp), rfl, rfl, [7, 0], [], by decide +kernel, by decide, by decide⟩

end Verif.P2P.Answers
