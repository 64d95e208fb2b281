import Verif.AMap
/-!
# C35: connection counts of the client (libcs/client/client.go:496-524, libcs/client/conn.go:533-614)
-/
set_option linter.unusedSimpArgs false
set_option linter.unusedVariables false
namespace Verif.Client.Counts
open Verif

/-- The three counts of the configuration (Go `uint`). -/
structure Counts where
  remote : Nat
  idle : Nat
  webrtc : Nat
deriving DecidableEq, Repr

/-- libcs/client/client.go:496-500. -/
def clampRemote (n : Nat) : Nat := if n < 1 then 1 else if n > 10 then 10 else n
/-- libcs/client/client.go:501-505; `remote` is already clamped. -/
def clampIdle (remote n : Nat) : Nat := if n < 1 then 1 else if n > remote then remote else n
/-- libcs/client/client.go:506-510 (release builds: `predef.Debug` is false). -/
def clampWebrtc (n : Nat) : Nat := if n < 1 then 1 else if n > 50 then 50 else n

/-- libcs/client/client.go:496-510: the values in effect after `Start`. -/
def start (c : Counts) : Counts :=
  let r := clampRemote c.remote
  ⟨r, clampIdle r c.idle, clampWebrtc c.webrtc⟩

/-- libcs/client/client.go:517-524: the connection loops started: (dialer, connID). -/
def connLoops (remote : Nat) : Nat → Nat → List (Nat × Nat)
  | 0, _ => []
  | nd + 1, base => connLoops remote nd base ++ (List.range remote).map (fun i => (nd, base + nd * remote + i + 1))

/-- C35: for every configuration the counts in effect are in range, and values in range are kept. -/
theorem counts_clamped (c : Counts) :
    (1 ≤ (start c).remote ∧ (start c).remote ≤ 10) ∧
    (1 ≤ (start c).idle ∧ (start c).idle ≤ (start c).remote) ∧
    (1 ≤ (start c).webrtc ∧ (start c).webrtc ≤ 50) ∧
    (1 ≤ c.remote → c.remote ≤ 10 → (start c).remote = c.remote) ∧
    (1 ≤ c.idle → c.idle ≤ (start c).remote → (start c).idle = c.idle) ∧
    (1 ≤ c.webrtc → c.webrtc ≤ 50 → (start c).webrtc = c.webrtc) := by
  have hr : ∀ n, 1 ≤ clampRemote n ∧ clampRemote n ≤ 10 := by
    intro n; unfold clampRemote
    by_cases h : n < 1
    · simp [h]
    · by_cases h2 : n > 10 <;> simp [h, h2]; omega
  have hi : ∀ R n, 1 ≤ R → 1 ≤ clampIdle R n ∧ clampIdle R n ≤ R ∧ (1 ≤ n → n ≤ R → clampIdle R n = n) := by
    intro R n hR; unfold clampIdle
    by_cases h : n < 1
    · simp [h]; omega
    · by_cases h2 : n > R <;> simp [h, h2] <;> omega
  have hw : ∀ n, 1 ≤ clampWebrtc n ∧ clampWebrtc n ≤ 50 ∧ (1 ≤ n → n ≤ 50 → clampWebrtc n = n) := by
    intro n; unfold clampWebrtc
    by_cases h : n < 1
    · simp [h]; omega
    · by_cases h2 : n > 50 <;> simp [h, h2] <;> omega
  simp only [start]
  have h1 := hr c.remote
  have h2 := hi (clampRemote c.remote) c.idle h1.1
  have h3 := hw c.webrtc
  refine ⟨h1, ⟨h2.1, h2.2.1⟩, ⟨h3.1, h3.2.1⟩, ?_, h2.2.2, h3.2.2⟩
  intro a b
  unfold clampRemote
  rw [if_neg (by omega), if_neg (by omega)]

/-- The default configuration and an out-of-range one. -/
example : start ⟨3, 1, 30⟩ = ⟨3, 1, 30⟩ ∧ start ⟨0, 7, 1000⟩ = ⟨1, 1, 50⟩ := by decide

/-- C35: a value out of range is replaced by the nearest bound. -/
theorem counts_nearest (c : Counts) :
    (c.remote = 0 → (start c).remote = 1) ∧ (10 < c.remote → (start c).remote = 10) ∧
    (c.idle = 0 → (start c).idle = 1) ∧ ((start c).remote < c.idle → (start c).idle = (start c).remote) ∧
    (c.webrtc = 0 → (start c).webrtc = 1) ∧ (50 < c.webrtc → (start c).webrtc = 50) := by
  simp only [start, clampRemote, clampIdle, clampWebrtc]
  refine ⟨?_, ?_, ?_, ?_, ?_, ?_⟩ <;> intro h <;> (repeat' split) <;> (try split at h) <;> (try split at h) <;> omega

/-- C35 (one loop per configured connection): every remote server gets exactly the clamped number of
connection loops, and all loops have different connection numbers. -/
theorem loops_per_remote (remote nd : Nat) :
    (∀ d, d < nd → ((connLoops remote nd 0).filter (fun x => x.1 = d)).length = remote) ∧
    (connLoops remote nd 0).length = nd * remote ∧
    ((connLoops remote nd 0).map (·.2)) = (List.range (nd * remote)).map (· + 1) := by
  induction nd with
  | zero => simp [connLoops]
  | succ nd ih =>
    obtain ⟨h1, h2, h3⟩ := ih
    refine ⟨?_, ?_, ?_⟩
    · intro d hd
      simp only [connLoops, List.filter_append, List.length_append]
      by_cases e : d = nd
      · subst e
        have hz : (connLoops remote d 0).filter (fun x => x.1 = d) = [] := by
          rw [List.filter_eq_nil_iff]
          intro x hx
          have key : ∀ nd, ∀ x ∈ connLoops remote nd 0, x.1 < nd := by
            intro nd
            induction nd with
            | zero => simp [connLoops]
            | succ nd ih =>
              intro x hx
              simp only [connLoops, List.mem_append, List.mem_map] at hx
              rcases hx with hx | ⟨i, _, rfl⟩
              · have := ih x hx; omega
              · simp
          have := key d x hx
          simp; omega
        rw [hz]
        simp [List.filter_map, Function.comp_def]
        rw [List.filter_eq_self.2 (by simp)]; simp
      · have hz : ((List.range remote).map (fun i => (nd, 0 + nd * remote + i + 1))).filter (fun x => x.1 = d) = [] := by
          rw [List.filter_eq_nil_iff]
          intro x hx
          obtain ⟨i, _, rfl⟩ := List.mem_map.1 hx
          simp; omega
        rw [hz, h1 d (by omega)]; simp
    · simp [connLoops, h2, Nat.succ_mul]
    · simp only [connLoops, List.map_append, h3, List.map_map]
      rw [Nat.succ_mul, List.range_add, List.map_append, List.map_map]
      congr 1
      apply List.map_congr_left
      intro i _
      simp [Function.comp]

/-! ## Peer tasks: the limit on WebRTC connections -/

/-- The client's peers: `peers` is the map, `alive` the tasks that exist and have not been closed (their
compare-and-swap on `closing` has not happened), `dying` those between the compare-and-swap and the
deletion from the map in `CloseWithLock` (libcs/client/peer.go:169-186). Tasks are numbered in creation order and
remember their id. `stuck`: the lock is held by a goroutine that waits for it (see `Verif.P2P.Table`). -/
structure Peers where
  limit : Nat
  peers : AMap Nat Nat
  alive : List (Nat × Nat)
  dying : List (Nat × Nat)
  next : Nat
  stuck : Bool
deriving DecidableEq, Repr

def Peers.init (limit : Nat) : Peers := ⟨limit, [], [], [], 0, false⟩

/-- Steps, each under `peersRWMtx` or one compare-and-swap. -/
inductive PStep where
  /-- `newPeerTask(id)` / `newPeerProcTask(id)` (libcs/client/conn.go:533-614) -/
  | new (id : Nat)
  /-- `CloseWithLock` of task `t`: the compare-and-swap -/
  | closeCas (t : Nat)
  /-- `CloseWithLock` of task `t`: `delete(client.peers, pt.id)` -/
  | closeDel (t : Nat)
deriving DecidableEq, Repr

/-- libcs/client/conn.go:533-614, libcs/client/peer.go:169-186. -/
def pstep (s : Peers) : PStep → Peers
  | .new id =>
    if s.stuck then s
    else if s.peers.length ≥ s.limit then s
    else
      match s.alive.find? (fun x => some x.1 = s.peers.get id) with
      -- an old task with this id that is not being closed: `CloseWithLock` wins the compare-and-swap and waits for the
      -- lock its caller holds
      | some x => { s with alive := s.alive.filter (fun y => y.1 ≠ x.1), dying := s.dying ++ [x], stuck := true }
      | none => { s with
          peers := (s.peers.del id).set id s.next
          alive := s.alive ++ [(s.next, id)]
          next := s.next + 1 }
  | .closeCas t =>
    { s with alive := s.alive.filter (fun x => x.1 ≠ t), dying := s.dying ++ s.alive.filter (fun x => x.1 = t) }
  | .closeDel t =>
    if s.stuck then s
    else
      match s.dying.find? (fun x => x.1 = t) with
      | none => s
      | some (_, id) => { s with peers := s.peers.del id, dying := s.dying.filter (fun x => x.1 ≠ t) }

def prun (s : Peers) (tr : List PStep) : Peers := tr.foldl pstep s

theorem del_length_le (m : AMap Nat Nat) (k : Nat) : (m.del k).length ≤ m.length := by
  unfold AMap.del; exact List.length_filter_le _ _

/-- The map of peers never holds more than the configured number of tasks. -/
theorem peer_table_within_limit (limit : Nat) (tr : List PStep) :
    (prun (Peers.init limit) tr).peers.length ≤ limit := by
  have key : ∀ tr s, s.peers.length ≤ s.limit → (prun s tr).peers.length ≤ s.limit ∧ (prun s tr).limit = s.limit := by
    intro tr
    induction tr with
    | nil => intro s h; exact ⟨h, rfl⟩
    | cons x tr ih =>
      intro s h
      have hs : (pstep s x).limit = s.limit ∧ (pstep s x).peers.length ≤ s.limit := by
        cases x with
        | new id =>
          simp only [pstep]
          split
          · exact ⟨rfl, h⟩
          · split
            · exact ⟨rfl, h⟩
            · split
              · exact ⟨rfl, h⟩
              · refine ⟨rfl, ?_⟩
                have h1 := del_length_le s.peers id
                have h2 := AMap.length_set_le (s.peers.del id) id s.next
                dsimp only; omega
        | closeCas t => exact ⟨rfl, h⟩
        | closeDel t =>
          simp only [pstep]
          split
          · exact ⟨rfl, h⟩
          · cases hf : s.dying.find? (fun x => x.1 = t) with
            | none => exact ⟨rfl, h⟩
            | some y => exact ⟨rfl, Nat.le_trans (del_length_le _ _) h⟩
      have := ih (pstep s x) (by rw [hs.1]; exact hs.2)
      rw [hs.1] at this
      exact this
  exact (key tr (Peers.init limit) (by simp [Peers.init])).1

/-- Finding: the number of live peer tasks can exceed the limit: a closing task deletes the entry of a
newer task that took over its id, which then runs uncounted. -/
theorem peer_limit_exceeded :
    (prun (Peers.init 2) [.new 7, .closeCas 0, .new 7, .closeDel 0, .new 8, .new 9]).alive.length = 3 := by decide

/-- Operations whose close is not overtaken by other operations. -/
inductive Op where
  | new (id : Nat)
  | close (t : Nat)
deriving DecidableEq, Repr

def Op.steps : Op → List PStep
  | .new id => [.new id]
  | .close t => [.closeCas t, .closeDel t]

/-- While the lock is not stuck the live tasks are the entries of the table. -/
structure PInv (s : Peers) : Prop where
  hcorr : s.stuck = false → s.alive = s.peers.map (fun e => (e.2, e.1))
  hkeys : (AMap.keys s.peers).Nodup
  htasks : (s.alive.map (·.1)).Nodup
  hlt : ∀ x ∈ s.alive, x.1 < s.next
  hdying : s.stuck = false → s.dying = []
  hlen : s.alive.length ≤ s.peers.length

theorem eq_of_nodup_fst {l : List (Nat × Nat)} (h : (l.map (·.1)).Nodup) {a b c : Nat} (h1 : (a, b) ∈ l) (h2 : (a, c) ∈ l) :
    b = c := by
  induction l with
  | nil => simp at h1
  | cons x l ih =>
    simp only [List.map_cons, List.nodup_cons] at h
    rcases List.mem_cons.1 h1 with e1 | h1'
    · rcases List.mem_cons.1 h2 with e2 | h2'
      · have := e1.trans e2.symm; simp at this; exact this
      · exact absurd (List.mem_map.2 ⟨(a, c), h2', by rw [← e1]⟩) h.1
    · rcases List.mem_cons.1 h2 with e2 | h2'
      · exact absurd (List.mem_map.2 ⟨(a, b), h1', by rw [← e2]⟩) h.1
      · exact ih h.2 h1' h2'

theorem PInv.new {s : Peers} (h : PInv s) (id : Nat) : PInv (pstep s (.new id)) := by
  simp only [pstep]
  by_cases hst : s.stuck = true
  · rw [if_pos hst]; exact h
  rw [if_neg hst]
  have hst : s.stuck = false := by simpa using hst
  by_cases hl : s.peers.length ≥ s.limit
  · rw [if_pos hl]; exact h
  rw [if_neg hl]
  cases hf : s.alive.find? (fun x => some x.1 = s.peers.get id) with
  | some x =>
    refine ⟨(fun h => by cases h), h.hkeys, ?_, ?_, (fun h => by cases h), ?_⟩
    · exact h.htasks.sublist (List.filter_sublist.map _)
    · intro y hy; exact h.hlt y (List.mem_filter.mp hy).1
    · exact Nat.le_trans (List.length_filter_le _ _) h.hlen
  | none =>
    -- the entry is absent: every entry is alive
    have hnone : s.peers.get id = none := by
      cases hg : s.peers.get id with
      | none => rfl
      | some k =>
        have hm := AMap.mem_of_get _ hg
        have : (k, id) ∈ s.alive := by rw [h.hcorr hst]; exact List.mem_map.2 ⟨(id, k), hm, rfl⟩
        have := (List.find?_eq_none.mp hf) _ this
        simp [hg] at this
    have hnk : id ∉ AMap.keys s.peers := by rwa [← AMap.get_eq_none_iff]
    have hdel : s.peers.del id = s.peers := by
      unfold AMap.del
      rw [List.filter_eq_self]
      intro e he
      have : e.1 ≠ id := fun e1 => hnk (List.mem_map.2 ⟨e, he, e1⟩)
      simp [this]
    rw [hdel, AMap.set_of_not_mem _ hnk]
    refine ⟨?_, ?_, ?_, ?_, h.hdying, ?_⟩
    · intro _
      simp only [List.map_append, List.map_cons, List.map_nil]
      rw [h.hcorr hst]
    · have := AMap.nodup_set h.hkeys id s.next
      rw [AMap.set_of_not_mem _ hnk] at this; exact this
    · rw [List.map_append, List.nodup_append]
      refine ⟨h.htasks, by simp, ?_⟩
      intro a ha b hb
      simp only [List.map_cons, List.map_nil, List.mem_singleton] at hb
      obtain ⟨x, hx, rfl⟩ := List.mem_map.1 ha
      have := h.hlt x hx
      omega
    · intro x hx
      rcases List.mem_append.1 hx with hx | hx
      · have := h.hlt x hx; simp only; omega
      · simp only [List.mem_singleton] at hx; subst hx; simp
    · have := h.hlen
      simp only [List.length_append, List.length_cons, List.length_nil]; omega

theorem filter_unique {l : List (Nat × Nat)} (h : (l.map (·.1)).Nodup) {x : Nat × Nat} (hx : x ∈ l) :
    l.filter (fun y => y.1 = x.1) = [x] := by
  induction l with
  | nil => simp at hx
  | cons y l ih =>
    simp only [List.map_cons, List.nodup_cons] at h
    rcases List.mem_cons.1 hx with rfl | hx'
    · rw [List.filter_cons, if_pos (by simp)]
      congr 1
      rw [List.filter_eq_nil_iff]
      intro z hz
      have : z.1 ≠ x.1 := fun e => h.1 (List.mem_map.2 ⟨z, hz, e⟩)
      simp [this]
    · have : y.1 ≠ x.1 := fun e => h.1 (by rw [e]; exact List.mem_map.2 ⟨x, hx', rfl⟩)
      rw [List.filter_cons, if_neg (by simp [this])]
      exact ih h.2 hx'

theorem PInv.close {s : Peers} (h : PInv s) (t : Nat) : PInv (pstep (pstep s (.closeCas t)) (.closeDel t)) := by
  by_cases hst : s.stuck = true
  · have e2 : pstep (pstep s (.closeCas t)) (.closeDel t) = pstep s (.closeCas t) := by
      show (if s.stuck = true then _ else _) = _
      rw [if_pos hst]
    rw [e2]
    simp only [pstep]
    refine ⟨(fun e => by simp only [hst] at e; cases e), h.hkeys, h.htasks.sublist (List.filter_sublist.map _), ?_,
      (fun e => by simp only [hst] at e; cases e), Nat.le_trans (List.length_filter_le _ _) h.hlen⟩
    intro y hy; exact h.hlt y (List.mem_filter.mp hy).1
  have hsf : s.stuck = false := by simpa using hst
  have hcorr := h.hcorr hsf
  by_cases hm : ∃ x ∈ s.alive, x.1 = t
  · obtain ⟨x, hx, rfl⟩ := hm
    have hu := filter_unique h.htasks hx
    simp only [pstep, h.hdying hsf, List.nil_append, hu, List.find?_cons, decide_true, if_neg hst]
    have hfil : s.alive.filter (fun y => y.1 ≠ x.1) = (s.peers.del x.2).map (fun e => (e.2, e.1)) := by
      rw [hcorr]
      unfold AMap.del
      rw [List.filter_map]
      congr 1
      apply List.filter_congr
      intro e he
      simp only [Function.comp]
      have m1 : (e.2, e.1) ∈ s.alive := by rw [hcorr]; exact List.mem_map.2 ⟨e, he, rfl⟩
      have m3 : (x.2, x.1) ∈ s.peers := by
        rw [hcorr] at hx
        obtain ⟨y, hy, e⟩ := List.mem_map.1 hx
        rw [← e]; exact hy
      by_cases e1 : e.2 = x.1
      · have : e.1 = x.2 := eq_of_nodup_fst h.htasks (e1 ▸ m1) hx
        simp [e1, this]
      · have : e.1 ≠ x.2 := by
          intro e2
          have g1 := AMap.get_of_mem h.hkeys (show (e.1, e.2) ∈ s.peers from he)
          have g2 := AMap.get_of_mem h.hkeys m3
          rw [e2, g2] at g1
          simp at g1
          exact e1 g1.symm
        simp [e1, this]
    refine ⟨fun _ => hfil, AMap.nodup_del h.hkeys _, h.htasks.sublist ((List.filter_sublist).map _), ?_,
      fun _ => by simp, ?_⟩
    · intro y hy
      exact h.hlt y (List.mem_filter.1 hy |>.1)
    · dsimp only; rw [hfil, List.length_map]; exact Nat.le_refl _
  · have hn : s.alive.filter (fun x => x.1 = t) = [] := by
      rw [List.filter_eq_nil_iff]; intro x hx; simp; exact fun e => hm ⟨x, hx, e⟩
    have hn2 : s.alive.filter (fun x => x.1 ≠ t) = s.alive := by
      rw [List.filter_eq_self]; intro x hx; simp; exact fun e => hm ⟨x, hx, e⟩
    simp only [pstep, h.hdying hsf, List.nil_append, hn, hn2, List.find?_nil, if_neg hst]
    exact ⟨h.hcorr, h.hkeys, h.htasks, h.hlt, fun _ => rfl, h.hlen⟩

/-- The number of live peer tasks is within the configured limit whenever no close is overtaken by another
operation between its compare-and-swap and its deletion. -/
theorem live_peers_within_limit_partial (limit : Nat) (ops : List Op) :
    (prun (Peers.init limit) (ops.flatMap Op.steps)).alive.length ≤ limit := by
  have key : ∀ (ops : List Op) s, PInv s → PInv (prun s (ops.flatMap Op.steps)) := by
    intro ops
    induction ops with
    | nil => intro s h; exact h
    | cons o ops ih =>
      intro s h
      rw [List.flatMap_cons]
      unfold prun
      rw [List.foldl_append]
      cases o with
      | new id => exact ih _ (h.new id)
      | close t => exact ih _ (h.close t)
  have h := key ops (Peers.init limit) ⟨fun _ => rfl, by simp [Peers.init, AMap.keys], by simp [Peers.init],
    by simp [Peers.init], fun _ => rfl, by simp [Peers.init]⟩
  exact Nat.le_trans h.hlen (peer_table_within_limit limit _)

/-- Non-vacuity: with limit 2, a third task is refused until one is closed. -/
example : (prun (Peers.init 2) ([.new 7, .new 8, .new 9, .close 0, .new 9].flatMap Op.steps)).alive = [(1, 8), (2, 9)] := by
  decide

end Verif.Client.Counts
