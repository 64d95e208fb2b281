import Verif.AMap
set_option linter.unusedSimpArgs false
set_option linter.unusedVariables false
/-!
# C57: P2P requests and the other traffic of a client (libcs/client/conn.go:389-614, libcs/client/peerproc.go:178-228)

A client may have tunnels to several servers. Each tunnel has its own table of proxied connections, but all tunnels
share one table of P2P tasks, keyed by the number the server gave to the visitor. The model follows one frame at a
time per tunnel (`readLoop`), the closing of tasks, and the lock `peersRWMtx`. Visitors are ghosts: every frame says
which visitor's bytes it carries.
-/
namespace Verif.P2P.Table
open Verif

structure St where
  /-- `conn.tasks` of each tunnel: number → visitor -/
  tasks : Nat → AMap Nat Nat
  /-- `Client.peers`: number → P2P task -/
  peers : AMap Nat Nat
  /-- the visitor of each P2P task, by order of creation (`peerProcessTask.tunnel`, `.id`) -/
  made : List Nat
  /-- tasks whose compare-and-swap on `closing` has been done -/
  closing : List Nat
  /-- `peersRWMtx` is held by a goroutine that waits for itself -/
  held : Bool
  /-- tunnels whose `readLoop` waits for the lock -/
  blocked : List Nat
  /-- payloads delivered: (visitor that owns the connection, visitor that sent them) -/
  log : List (Nat × Nat)

def init : St := ⟨fun _ => [], [], [], [], false, [], []⟩

inductive Ev where
  /-- a first frame of visitor `v`, number `id`, on tunnel `t`, that begins with `XP` -/
  | openP2P (t id v : Nat)
  /-- another first frame, and the local service accepts the connection -/
  | openPlain (t id v : Nat)
  /-- a later data frame -/
  | data (t id v : Nat)
  /-- the local side of a proxied connection ends -/
  | closeTask (t id : Nat)
  /-- `CloseWithLock` / `closeWithLock` of a P2P task: the compare-and-swap, and the deletion from the table -/
  | peerCas (k : Nat)
  | peerDel (k id : Nat)
deriving DecidableEq, Repr

def updT (f : Nat → AMap Nat Nat) (t : Nat) (m : AMap Nat Nat) : Nat → AMap Nat Nat := fun x => if x = t then m else f x

/-- `limit`: `WebRTCRemoteConnections`; `stun t`: the server of tunnel `t` announced STUN addresses (`c.stuns`). -/
structure Cfg where
  limit : Nat
  stun : Nat → Bool

/-- libcs/client/conn.go:389-430, 460-530, 533-614; libcs/client/peerproc.go:195-228. -/
def step (cfg : Cfg) (s : St) : Ev → St
  | .openP2P t id v =>
    if t ∈ s.blocked then s
    else if cfg.stun t = false then s
    else if s.held then { s with blocked := t :: s.blocked }
    else if s.peers.length ≥ cfg.limit then s
    else
      match s.peers.get id with
      | none => { s with peers := s.peers.set id s.made.length, made := s.made ++ [v], log := s.log ++ [(v, v)] }
      | some k =>
        if k ∈ s.closing then
          { s with peers := s.peers.set id s.made.length, made := s.made ++ [v], log := s.log ++ [(v, v)] }
        else
          -- `ot.CloseWithLock()` while `newPeerProcTask` holds the lock: `sync.RWMutex` is not reentrant
          { s with closing := k :: s.closing, held := true, blocked := t :: s.blocked }
  | .openPlain t id v =>
    if t ∈ s.blocked then s
    else { s with tasks := updT s.tasks t ((s.tasks t).set id v), log := s.log ++ [(v, v)] }
  | .data t id v =>
    if t ∈ s.blocked then s
    else
      match (s.tasks t).get id with
      | some o => { s with log := s.log ++ [(o, v)] }
      | none =>
        if s.held then { s with blocked := t :: s.blocked }
        else
          match s.peers.get id with
          | none => s
          | some k =>
            if cfg.stun t = false then s
            else { s with log := s.log ++ [(s.made.getD k 0, v)] }
  | .closeTask t id => { s with tasks := updT s.tasks t ((s.tasks t).del id) }
  | .peerCas k => if k < s.made.length ∧ k ∉ s.closing then { s with closing := k :: s.closing } else s
  | .peerDel k id => if k ∈ s.closing ∧ s.held = false then { s with peers := s.peers.del id } else s

def run (cfg : Cfg) (s : St) : List Ev → St
  | [] => s
  | e :: es => run cfg (step cfg s e) es

/-! ## The assignment of numbers -/

/-- `at v` is the tunnel and the number of visitor `v`; `p2p v` tells whether it asks for P2P. The events respect it,
and a task that closes removes its own number. -/
structure Asg where
  loc : Nat → Nat × Nat
  p2p : Nat → Bool

def Ev.ok (a : Asg) (s : St) : Ev → Prop
  | .openP2P t id v => a.loc v = (t, id) ∧ a.p2p v = true ∧ v ∉ s.made
  | .openPlain t id v => a.loc v = (t, id) ∧ a.p2p v = false
  | .data t id v => a.loc v = (t, id)
  | .closeTask _ _ => True
  | .peerCas _ => True
  | .peerDel k id => (a.loc (s.made.getD k 0)).2 = id

def okRun (cfg : Cfg) (a : Asg) (s : St) : List Ev → Prop
  | [] => True
  | e :: es => e.ok a s ∧ okRun cfg a (step cfg s e) es

/-- What a server guarantees: on one tunnel two visitors have different numbers. -/
def Asg.perTunnel (a : Asg) : Prop := ∀ v w, a.loc v = a.loc w → v = w
/-- What the client would need: the number of a P2P visitor is used by nobody else, on any tunnel. -/
def Asg.p2pUnique (a : Asg) : Prop := ∀ v w, a.p2p v = true → (a.loc v).2 = (a.loc w).2 → v = w

structure Inv (a : Asg) (s : St) : Prop where
  free : s.held = false
  nob : s.blocked = []
  log : ∀ x ∈ s.log, x.1 = x.2
  tasks : ∀ t id v, (s.tasks t).get id = some v → a.loc v = (t, id)
  peers : ∀ id k, s.peers.get id = some k → ∃ v, s.made[k]? = some v ∧ (a.loc v).2 = id
  made : ∀ v ∈ s.made, a.p2p v = true

theorem inv_init (a : Asg) : Inv a init := by
  constructor <;> simp [init]

theorem inv_step {cfg : Cfg} {a : Asg} (h1 : a.perTunnel) (h2 : a.p2pUnique) {s : St} (h : Inv a s) {e : Ev}
    (he : e.ok a s) : Inv a (step cfg s e) := by
  cases e with
  | openP2P t id v =>
    obtain ⟨hl, hp, hm⟩ := he
    have hnone : s.peers.get id = none := by
      cases hg : s.peers.get id with
      | none => rfl
      | some k =>
        obtain ⟨w, hw, hid⟩ := h.peers id k hg
        have hvw : v = w := h2 v w hp (by rw [hl, hid])
        exact absurd (hvw ▸ List.mem_of_getElem? hw) hm
    have hb : ¬ t ∈ s.blocked := by rw [h.nob]; simp
    have hf : ¬ s.held = true := by rw [h.free]; simp
    simp only [step, if_neg hb, if_neg hf, hnone]
    split
    · exact h
    · split
      · exact h
      · · refine ⟨h.free, h.nob, ?_, h.tasks, ?_, ?_⟩
          · intro x hx
            rcases List.mem_append.mp hx with hx | hx
            · exact h.log x hx
            · rw [List.mem_singleton] at hx; subst hx; rfl
          · intro i k hk
            by_cases hi : i = id
            · subst hi
              rw [AMap.get_set_self] at hk
              cases hk
              exact ⟨v, by simp, by rw [hl]⟩
            · rw [AMap.get_set_ne _ _ (Ne.symm hi)] at hk
              obtain ⟨w, hw, hid⟩ := h.peers i k hk
              refine ⟨w, ?_, hid⟩
              have := (List.getElem?_eq_some_iff.mp hw).1
              simp only
              rw [List.getElem?_append_left this]; exact hw
          · intro w hw
            rcases List.mem_append.mp hw with hw | hw
            · exact h.made w hw
            · rw [List.mem_singleton] at hw; subst hw; exact hp
  | openPlain t id v =>
    obtain ⟨hl, _⟩ := he
    have hb : ¬ t ∈ s.blocked := by rw [h.nob]; simp
    simp only [step, if_neg hb]
    refine ⟨h.free, h.nob, ?_, ?_, h.peers, h.made⟩
    · intro x hx
      rcases List.mem_append.mp hx with hx | hx
      · exact h.log x hx
      · rw [List.mem_singleton] at hx; subst hx; rfl
    · intro t' id' v' hg
      simp only [updT] at hg
      by_cases ht : t' = t
      · subst ht
        rw [if_pos rfl] at hg
        by_cases hi : id' = id
        · subst hi; rw [AMap.get_set_self] at hg; cases hg; exact hl
        · rw [AMap.get_set_ne _ _ (Ne.symm hi)] at hg; exact h.tasks _ _ _ hg
      · rw [if_neg ht] at hg; exact h.tasks _ _ _ hg
  | data t id v =>
    have hl : a.loc v = (t, id) := he
    have hb : ¬ t ∈ s.blocked := by rw [h.nob]; simp
    simp only [step, if_neg hb]
    cases hg : (s.tasks t).get id with
    | some o =>
      refine ⟨h.free, h.nob, ?_, h.tasks, h.peers, h.made⟩
      intro x hx
      rcases List.mem_append.mp hx with hx | hx
      · exact h.log x hx
      · rw [List.mem_singleton] at hx; subst hx
        exact h1 o v (by rw [h.tasks _ _ _ hg, hl])
    | none =>
      have hf : ¬ s.held = true := by rw [h.free]; simp
      simp only [if_neg hf]
      cases hp : s.peers.get id with
      | none => exact h
      | some k =>
        dsimp only
        split
        · exact h
        · obtain ⟨w, hw, hid⟩ := h.peers id k hp
          refine ⟨h.free, h.nob, ?_, h.tasks, h.peers, h.made⟩
          intro x hx
          rcases List.mem_append.mp hx with hx | hx
          · exact h.log x hx
          · rw [List.mem_singleton] at hx; subst hx
            have hwv : w = v := h2 w v (h.made w (List.mem_of_getElem? hw)) (by rw [hid, hl])
            simp [List.getD_eq_getElem?_getD, hw, hwv]
  | closeTask t id =>
    refine ⟨h.free, h.nob, h.log, ?_, h.peers, h.made⟩
    intro t' id' v' hg
    simp only [step, updT] at hg
    by_cases ht : t' = t
    · subst ht
      rw [if_pos rfl] at hg
      by_cases hi : id' = id
      · subst hi; simp at hg
      · rw [AMap.get_del, if_neg (by first | exact hi | exact Ne.symm hi)] at hg; exact h.tasks _ _ _ hg
    · rw [if_neg ht] at hg; exact h.tasks _ _ _ hg
  | peerCas k =>
    simp only [step]
    split
    · exact ⟨h.free, h.nob, h.log, h.tasks, h.peers, h.made⟩
    · exact h
  | peerDel k id =>
    simp only [step]
    split
    · refine ⟨h.free, h.nob, h.log, h.tasks, ?_, h.made⟩
      intro i k' hk
      by_cases hi : i = id
      · subst hi; simp at hk
      · rw [AMap.get_del, if_neg (by first | exact hi | exact Ne.symm hi)] at hk; exact h.peers i k' hk
    · exact h

theorem inv_run {cfg : Cfg} {a : Asg} (h1 : a.perTunnel) (h2 : a.p2pUnique) : ∀ (es : List Ev) {s : St}, Inv a s →
    okRun cfg a s es → Inv a (run cfg s es)
  | [], _, h, _ => h
  | e :: es, _, h, ho => inv_run h1 h2 es (inv_step h1 h2 h ho.1) ho.2

/-- **C57** (partial): if the number of a P2P visitor is used by no other visitor of any server, no tunnel ever waits
for a lock and all bytes reach the connection of the visitor that sent them. Missing: numbers of different servers,
which coincide as a rule (`p2p_deadlock`, `p2p_crosstalk`). -/
theorem p2p_isolated_partial (cfg : Cfg) (a : Asg) (h1 : a.perTunnel) (h2 : a.p2pUnique) (es : List Ev)
    (ho : okRun cfg a init es) :
    (run cfg init es).blocked = [] ∧ (run cfg init es).held = false ∧ ∀ x ∈ (run cfg init es).log, x.1 = x.2 := by
  have h := inv_run h1 h2 es (inv_init a) ho
  exact ⟨h.nob, h.free, h.log⟩

/-! ## The limit -/

/-- The P2P sessions that were accepted and have not begun to close. -/
def sessions (s : St) : List Nat := (List.range s.made.length).filter fun k => decide (k ∉ s.closing)

/-- Every session that has not begun to close is in the table, under the number of its visitor; the table is within the limit. -/
structure LInv (cfg : Cfg) (a : Asg) (s : St) : Prop where
  tab : ∀ k v, s.made[k]? = some v → k ∉ s.closing → s.peers.get (a.loc v).2 = some k
  lim : s.peers.length ≤ cfg.limit
  old : ∀ k ∈ s.closing, k < s.made.length
  nd : s.made.Nodup

theorem linv_init (cfg : Cfg) (a : Asg) : LInv cfg a init := by
  constructor <;> simp [init]

theorem linv_step {cfg : Cfg} {a : Asg} (h1 : a.perTunnel) (h2 : a.p2pUnique) {s : St} (h : Inv a s) (l : LInv cfg a s)
    {e : Ev} (he : e.ok a s) : LInv cfg a (step cfg s e) := by
  cases e with
  | openP2P t id v =>
    obtain ⟨hl, hp, hm⟩ := he
    have hnone : s.peers.get id = none := by
      cases hg : s.peers.get id with
      | none => rfl
      | some k =>
        obtain ⟨w, hw, hid⟩ := h.peers id k hg
        have hvw : v = w := h2 v w hp (by rw [hl, hid])
        exact absurd (hvw ▸ List.mem_of_getElem? hw) hm
    have hb : ¬ t ∈ s.blocked := by rw [h.nob]; simp
    have hf : ¬ s.held = true := by rw [h.free]; simp
    simp only [step, if_neg hb, if_neg hf, hnone]
    split
    · exact l
    · split
      · exact l
      · rename_i hlim
        refine ⟨?_, ?_, ?_, ?_⟩
        · intro k w hk hc
          dsimp only at hk hc ⊢
          by_cases hlt : k < s.made.length
          · rw [List.getElem?_append_left hlt] at hk
            have hwv : (a.loc w).2 ≠ id := by
              intro hh
              have : v = w := h2 v w hp (by rw [hl, hh])
              exact hm (this ▸ List.mem_of_getElem? hk)
            rw [AMap.get_set_ne _ _ (Ne.symm hwv)]
            exact l.tab k w hk hc
          · rw [List.getElem?_append_right (by omega)] at hk
            have hk0 : k - s.made.length = 0 := by
              cases hd : k - s.made.length with
              | zero => rfl
              | succ n => rw [hd] at hk; simp at hk
            rw [hk0] at hk
            have hvw : v = w := by simpa using hk
            subst hvw
            have : k = s.made.length := by omega
            subst this
            rw [hl]; exact AMap.get_set_self _ _ _
        · dsimp only
          have := AMap.length_set_le s.peers id s.made.length
          omega
        · intro k hk
          have := l.old k hk
          simp only [List.length_append, List.length_singleton]; omega
        · exact List.nodup_append.mpr ⟨l.nd, by simp, by
            intro x hx y hy
            rw [List.mem_singleton] at hy
            subst hy
            intro hh; exact hm (hh ▸ hx)⟩
  | openPlain t id v =>
    simp only [step]
    split
    · exact l
    · exact ⟨l.tab, l.lim, l.old, l.nd⟩
  | data t id v =>
    simp only [step]
    split
    · exact l
    · split
      · exact ⟨l.tab, l.lim, l.old, l.nd⟩
      · split
        · exact ⟨l.tab, l.lim, l.old, l.nd⟩
        · split
          · exact l
          · split
            · exact l
            · exact ⟨l.tab, l.lim, l.old, l.nd⟩
  | closeTask t id => exact ⟨l.tab, l.lim, l.old, l.nd⟩
  | peerCas k =>
    simp only [step]
    split
    · rename_i hk
      refine ⟨?_, l.lim, ?_, l.nd⟩
      · intro j v hj hc
        exact l.tab j v hj (fun hh => hc (List.mem_cons_of_mem _ hh))
      · intro j hj
        rcases List.mem_cons.mp hj with rfl | hj
        · exact hk.1
        · exact l.old j hj
    · exact l
  | peerDel k id =>
    simp only [step]
    split
    · rename_i hk
      refine ⟨?_, ?_, l.old, l.nd⟩
      · intro j v hj hc
        have hkl := l.old k hk.1
        have hid : (a.loc (s.made.getD k 0)).2 = id := he
        have hne : (a.loc v).2 ≠ id := by
          intro hh
          have hmk : s.made.getD k 0 ∈ s.made := by
            rw [List.getD_eq_getElem?_getD, List.getElem?_eq_getElem hkl]; exact List.getElem_mem hkl
          have hvw : s.made.getD k 0 = v := h2 _ _ (h.made _ hmk) (by rw [hid, hh])
          have hjk : j = k := by
            have hjl : j < s.made.length := (List.getElem?_eq_some_iff.mp hj).1
            have e1 : s.made[j] = v := (List.getElem?_eq_some_iff.mp hj).2
            have e2 : s.made[k] = v := by
              rw [← hvw, List.getD_eq_getElem?_getD, List.getElem?_eq_getElem hkl]; rfl
            exact (List.getElem_inj l.nd).mp (e1.trans e2.symm)
          exact hc (hjk ▸ hk.1)
        rw [AMap.get_del, if_neg (by first | exact hne | exact Ne.symm hne)]
        exact l.tab j v hj hc
      · exact Nat.le_trans (List.length_filter_le _ _) l.lim
    · exact l

theorem linv_run {cfg : Cfg} {a : Asg} (h1 : a.perTunnel) (h2 : a.p2pUnique) : ∀ (es : List Ev) {s : St}, Inv a s →
    LInv cfg a s → okRun cfg a s es → LInv cfg a (run cfg s es)
  | [], _, _, l, _ => l
  | e :: es, _, h, l, ho => linv_run h1 h2 es (inv_step h1 h2 h ho.1) (linv_step h1 h2 h l ho.1) ho.2

/-- **C134, the limit**: whatever requests, frames and closings come in whatever order, a client never has more open P2P sessions than
configured (for the numbers of P2P visitors, see C57). -/
theorem p2p_sessions_limited (cfg : Cfg) (a : Asg) (h1 : a.perTunnel) (h2 : a.p2pUnique) (es : List Ev)
    (ho : okRun cfg a init es) : (sessions (run cfg init es)).length ≤ cfg.limit := by
  have l := linv_run h1 h2 es (inv_init a) (linv_init cfg a) ho
  generalize run cfg init es = s at l
  have hsub : sessions s ⊆ s.peers.map (·.2) := by
    intro k hk
    obtain ⟨hk1, hk2⟩ := List.mem_filter.mp hk
    have hlt := List.mem_range.mp hk1
    have := l.tab k s.made[k] (List.getElem?_eq_getElem hlt) (by simpa using hk2)
    exact List.mem_map.mpr ⟨_, AMap.mem_of_get _ this, rfl⟩
  have hnd : (sessions s).Nodup := List.Pairwise.filter _ List.nodup_range
  have := List.Nodup.length_le_of_subset hnd hsub
  rw [List.length_map] at this
  exact Nat.le_trans this l.lim

/-- **C134, below the limit**: if fewer sessions than configured are in the table, a request of a new visitor on a tunnel whose
server announced STUN addresses opens a session, and its first bytes reach that session. -/
theorem p2p_request_served (cfg : Cfg) (a : Asg) (h1 : a.perTunnel) (h2 : a.p2pUnique) (es : List Ev)
    (ho : okRun cfg a init es) (t id v : Nat) (he : (Ev.openP2P t id v).ok a (run cfg init es)) (hs : cfg.stun t = true)
    (hl : (run cfg init es).peers.length < cfg.limit) :
    (run cfg init es).made.length ∈ sessions (step cfg (run cfg init es) (.openP2P t id v)) ∧
    (step cfg (run cfg init es) (.openP2P t id v)).made = (run cfg init es).made ++ [v] ∧
    (v, v) ∈ (step cfg (run cfg init es) (.openP2P t id v)).log := by
  have h := inv_run h1 h2 es (inv_init a) ho
  have l := linv_run h1 h2 es (inv_init a) (linv_init cfg a) ho
  generalize run cfg init es = s at *
  obtain ⟨hloc, hp, hm⟩ := he
  have hnone : s.peers.get id = none := by
    cases hg : s.peers.get id with
    | none => rfl
    | some k =>
      obtain ⟨w, hw, hid⟩ := h.peers id k hg
      have hvw : v = w := h2 v w hp (by rw [hloc, hid])
      exact absurd (hvw ▸ List.mem_of_getElem? hw) hm
  have hb : ¬ t ∈ s.blocked := by rw [h.nob]; simp
  have hf : ¬ s.held = true := by rw [h.free]; simp
  have hst : ¬ cfg.stun t = false := by rw [hs]; simp
  simp only [step, if_neg hb, if_neg hf, if_neg hst, hnone, if_neg (Nat.not_le.mpr hl)]
  refine ⟨?_, trivial, by simp⟩
  refine List.mem_filter.mpr ⟨List.mem_range.mpr (by simp), ?_⟩
  simp only [decide_eq_true_eq]
  intro hc
  exact Nat.lt_irrefl _ (l.old _ hc)

/-- **C134, at the limit**: with a full table a request opens nothing and nothing else is affected. -/
theorem p2p_request_refused (cfg : Cfg) (a : Asg) (h1 : a.perTunnel) (h2 : a.p2pUnique) (es : List Ev)
    (ho : okRun cfg a init es) (t id v : Nat) (hl : cfg.limit ≤ (run cfg init es).peers.length) :
    step cfg (run cfg init es) (.openP2P t id v) = run cfg init es := by
  have h := inv_run h1 h2 es (inv_init a) ho
  generalize run cfg init es = s at *
  have hb : ¬ t ∈ s.blocked := by rw [h.nob]; simp
  have hf : ¬ s.held = true := by rw [h.free]; simp
  simp only [step, if_neg hb, if_neg hf, if_pos hl, ite_self]

/-- **C134, an ended session frees its place**: once it has closed, its entry leaves the table. -/
theorem ended_session_frees_its_place (cfg : Cfg) (s : St) (k id : Nat) (hf : s.held = false) (hk : k ∈ s.closing)
    (hg : s.peers.get id = some k) :
    (step cfg s (.peerDel k id)).peers.get id = none ∧ (step cfg s (.peerDel k id)).peers.length < s.peers.length := by
  simp only [step, hk, hf]
  refine ⟨AMap.get_del_self _ _, ?_⟩
  exact List.length_filter_lt_length_iff_exists.mpr ⟨(id, k), AMap.mem_of_get _ hg, by simp⟩

/-- One server, all visitors with numbers of their own: with a limit of 2 the third request is refused until a session has ended. -/
def ownNumbers : Asg := ⟨fun v => (0, v + 1), fun _ => true⟩

example : ownNumbers.perTunnel ∧ ownNumbers.p2pUnique := by
  constructor
  · intro v w h
    simp only [ownNumbers, Prod.mk.injEq] at h
    omega
  · intro v w _ h
    simp only [ownNumbers] at h
    omega

example : let cfg : Cfg := ⟨2, fun _ => true⟩
    okRun cfg ownNumbers init [.openP2P 0 1 0, .openP2P 0 2 1, .openP2P 0 3 2, .peerCas 0, .peerDel 0 1, .openP2P 0 4 3] ∧
    (run cfg init [.openP2P 0 1 0, .openP2P 0 2 1, .openP2P 0 3 2, .peerCas 0, .peerDel 0 1, .openP2P 0 4 3]).made = [0, 1, 3] ∧
    sessions (run cfg init [.openP2P 0 1 0, .openP2P 0 2 1, .openP2P 0 3 2, .peerCas 0, .peerDel 0 1, .openP2P 0 4 3]) = [1, 2] := by
  refine ⟨⟨⟨rfl, rfl, by decide⟩, ⟨rfl, rfl, by decide⟩, ⟨rfl, rfl, by decide⟩, trivial, rfl, ⟨rfl, rfl, by decide⟩, trivial⟩,
    by decide, by decide⟩

/-! ## Two servers -/

def cfg2 : Cfg := ⟨30, fun _ => true⟩

/-- Two servers number their visitors from 1: visitor `v` is number `v / 2 + 1` of tunnel `v % 2`; visitors 0 and 1 ask
for P2P. -/
def twoServers : Asg := ⟨fun v => (v % 2, v / 2 + 1), fun v => v < 2⟩

theorem twoServers_perTunnel : twoServers.perTunnel := by
  intro v w h
  simp only [twoServers, Prod.mk.injEq] at h
  omega

/-- **C57 is false**: two servers, each numbering its visitors from 1, each sends one P2P request: the second request
blocks its tunnel for ever. (One server suffices if all tunnels to it are lost and come back while a P2P session lives:
its numbering restarts.) -/
theorem p2p_deadlock :
    okRun cfg2 twoServers init [.openP2P 0 1 0, .openP2P 1 1 1] ∧
    (run cfg2 init [.openP2P 0 1 0, .openP2P 1 1 1]).held = true ∧
    (run cfg2 init [.openP2P 0 1 0, .openP2P 1 1 1]).blocked = [1] := by
  refine ⟨⟨⟨rfl, rfl, by simp [init]⟩, ⟨rfl, rfl, by decide⟩, trivial⟩, by decide, by decide⟩

/-- Once the lock is held, nothing releases it: for every continuation no P2P task is created, the table is frozen,
blocked tunnels stay blocked, and any late data frame of a closed connection on another tunnel blocks that tunnel too. -/
theorem deadlock_is_permanent (cfg : Cfg) (es : List Ev) : ∀ (s : St), s.held = true →
    (run cfg s es).held = true ∧ (run cfg s es).made = s.made ∧ (run cfg s es).peers = s.peers ∧
    (∀ t ∈ s.blocked, t ∈ (run cfg s es).blocked) := by
  induction es with
  | nil => intro s h; exact ⟨h, rfl, rfl, fun t ht => ht⟩
  | cons e es ih =>
    intro s h
    have key : (step cfg s e).held = true ∧ (step cfg s e).made = s.made ∧ (step cfg s e).peers = s.peers ∧
        (∀ t ∈ s.blocked, t ∈ (step cfg s e).blocked) := by
      cases e with
      | openP2P t id v =>
        simp only [step, h]
        split
        · exact ⟨h, rfl, rfl, fun t ht => ht⟩
        · split
          · exact ⟨h, rfl, rfl, fun t ht => ht⟩
          · simp only [if_true]
            exact ⟨trivial, trivial, trivial, fun t' ht => List.mem_cons_of_mem _ ht⟩
      | openPlain t id v =>
        simp only [step]
        split
        · exact ⟨h, rfl, rfl, fun t ht => ht⟩
        · exact ⟨h, rfl, rfl, fun t ht => ht⟩
      | data t id v =>
        simp only [step, h]
        split
        · exact ⟨h, rfl, rfl, fun t ht => ht⟩
        · split
          · exact ⟨rfl, rfl, rfl, fun t ht => ht⟩
          · simp only [if_true]
            exact ⟨trivial, trivial, trivial, fun t' ht => List.mem_cons_of_mem _ ht⟩
      | closeTask t id => exact ⟨h, rfl, rfl, fun t ht => ht⟩
      | peerCas k =>
        simp only [step]
        split
        · exact ⟨h, rfl, rfl, fun t ht => ht⟩
        · exact ⟨h, rfl, rfl, fun t ht => ht⟩
      | peerDel k id =>
        simp only [step, h]
        rw [if_neg (by simp)]
        exact ⟨h, rfl, rfl, fun t ht => ht⟩
    obtain ⟨a, b, c, d⟩ := ih _ key.1
    exact ⟨a, b.trans key.2.1, c.trans key.2.2.1, fun t ht => d t (key.2.2.2 t ht)⟩

/-- With the lock held, a data frame for a connection that has already ended blocks its tunnel. -/
theorem late_frame_blocks (cfg : Cfg) (s : St) (h : s.held = true) (t id v : Nat) (hn : (s.tasks t).get id = none) :
    t ∈ (step cfg s (.data t id v)).blocked := by
  simp only [step]
  by_cases hb : t ∈ s.blocked
  · rw [if_pos hb]; exact hb
  · rw [if_neg hb, hn]
    simp [h]

/-- **C57 is false**: bytes that a visitor of one server sends to a connection the service has already closed are
delivered to the P2P session of another server's visitor with the same number. -/
theorem p2p_crosstalk :
    okRun cfg2 ⟨fun v => (v % 2, v / 2 + 1), fun v => v == 0⟩ init
      [.openP2P 0 1 0, .openPlain 1 1 1, .closeTask 1 1, .data 1 1 1] ∧
    (0, 1) ∈ (run cfg2 init [.openP2P 0 1 0, .openPlain 1 1 1, .closeTask 1 1, .data 1 1 1]).log := by
  refine ⟨⟨⟨rfl, rfl, by simp [init]⟩, ⟨rfl, rfl⟩, trivial, rfl, trivial⟩, by decide⟩

/-- With two servers even the limit fails (finding): a session that is closing removes its number from the table although a session of
the other server has taken its place; with a limit of two, three sessions are then open. -/
theorem limit_exceeded_by_two_servers :
    let es : List Ev := [.openP2P 0 1 0, .peerCas 0, .openP2P 1 1 1, .peerDel 0 1, .openP2P 0 2 2, .openP2P 0 3 4]
    okRun ⟨2, fun _ => true⟩ ⟨fun v => (v % 2, v / 2 + 1), fun _ => true⟩ init es ∧
    sessions (run ⟨2, fun _ => true⟩ init es) = [1, 2, 3] ∧
    (run ⟨2, fun _ => true⟩ init es).log = [(0, 0), (1, 1), (2, 2), (4, 4)] := by
  refine ⟨⟨⟨rfl, rfl, by simp [init]⟩, trivial, ⟨rfl, rfl, by decide⟩, rfl, ⟨rfl, rfl, by decide⟩, ⟨rfl, rfl, by decide⟩, trivial⟩, by decide, by decide⟩

/-- Non-vacuity: one server; two P2P visitors and a plain one that share two tunnels of it. -/
def oneServer : Asg := ⟨fun v => (v % 2, v + 1), fun v => v < 2⟩

example : oneServer.perTunnel ∧ oneServer.p2pUnique := by
  constructor
  · intro v w h; simp [oneServer] at h; omega
  · intro v w _ h; simp [oneServer] at h; omega

example : okRun cfg2 oneServer init [.openP2P 0 1 0, .openP2P 1 2 1, .openPlain 0 3 2, .data 0 1 0, .data 0 3 2,
      .peerCas 0, .peerDel 0 1, .data 0 1 0] ∧
    (run cfg2 init [.openP2P 0 1 0, .openP2P 1 2 1, .openPlain 0 3 2, .data 0 1 0, .data 0 3 2,
      .peerCas 0, .peerDel 0 1, .data 0 1 0]).log = [(0, 0), (1, 1), (2, 2), (0, 0), (2, 2)] := by
  refine ⟨⟨⟨rfl, rfl, by simp [init]⟩, ⟨rfl, rfl, by decide⟩, ⟨rfl, rfl⟩, rfl, rfl, trivial, rfl, rfl, trivial⟩, by decide⟩

end Verif.P2P.Table
