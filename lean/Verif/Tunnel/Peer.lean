import Verif.Tunnel.End
set_option linter.unusedSimpArgs false
set_option linter.unusedVariables false
/-!
# C10 (peer-to-peer requests), C51 (which ping ends a closing tunnel)

The table of peer-to-peer sessions belongs to the client, not to the tunnel: what tunnels do to each other is the
subject of C57. Here one tunnel is in use and sessions do not end.
-/
namespace Verif.Tunnel
open Verif

/-! ## C10: peer-to-peer requests -/

/-- What a session `i` holds after one more frame, if it held `v`; `l` is the local connection of task `i`. -/
def ownPeer (i : Nat) (l : Option Local) (v : Option Bytes) (f : SFrame) (e : Env) : Option Bytes :=
  match f with
  | .open_ id _ p => if id = i ∧ isXP p = true ∧ e.p2pOk = true then some p else v
  | .data id p => if id = i ∧ (l = none ∨ i ∈ e.ended) then v.map (· ++ p) else v
  | _ => v

/-- The local connection and the session of task `i`, from its own frames. -/
def pairRun (i : Nat) (s : Option Local × Option Bytes) (h : List (SFrame × Env)) : Option Local × Option Bytes :=
  h.foldl (fun s x => (own i s.1 x.1 x.2, ownPeer i s.1 s.2 x.1 x.2)) s

theorem pairRun_fst (i : Nat) (h : List (SFrame × Env)) (s : Option Local × Option Bytes) :
    (pairRun i s h).1 = ownRun i s.1 h := by
  induction h generalizing s with
  | nil => rfl
  | cons x h ih => exact ih _

theorem ownPeer_irrelevant (i : Nat) (l : Option Local) (v : Option Bytes) (f : SFrame) (e : Env)
    (h : concerns i (f, e) = false) : ownPeer i l v f e = v := by
  have hc : f.isOf i = false := by
    simp only [concerns, Bool.or_eq_false_iff] at h; exact h.1
  cases f with
  | open_ id si p =>
    have : id ≠ i := by rintro rfl; simp [SFrame.isOf] at hc
    simp [ownPeer, this]
  | data id p =>
    have : id ≠ i := by rintro rfl; simp [SFrame.isOf] at hc
    simp [ownPeer, this]
  | _ => rfl

theorem pairRun_filter (i : Nat) (h : List (SFrame × Env)) (s : Option Local × Option Bytes) :
    pairRun i s h = pairRun i s (h.filter (concerns i)) := by
  induction h generalizing s with
  | nil => rfl
  | cons x h ih =>
    cases hc : concerns i x
    · rw [List.filter_cons_of_neg (by simp [hc]), ← ih]
      simp only [pairRun, List.foldl_cons]
      rw [own_irrelevant i s.1 x.1 x.2 hc, ownPeer_irrelevant i s.1 s.2 x.1 x.2 hc]
    · rw [List.filter_cons_of_pos hc]
      simp only [pairRun, List.foldl_cons]
      exact ih _

theorem tasks_none_iff {s : CState} (h : CInv s) (i : Nat) : s.tasks.get i = none ↔ view s i = none := by
  unfold view
  cases hj : s.tasks.get i with
  | none => simp
  | some j =>
    have := h.bound i j hj
    simp [List.getElem?_eq_none_iff, this]

theorem handle_peers (nsvc : Nat) (e : Env) (s s' : CState) (hi : CInv s) (hi2 : CInv (reap e s)) (f : SFrame) (hv : f.Valid nsvc)
    (h : handle e (reap e s) f.item = some s') (i : Nat) :
    s'.peers.get i = ownPeer i (view s i) (s.peers.get i) f e := by
  have hp : (reap e s).peers = s.peers := rfl
  have hvw : view (reap e s) i = if i ∈ e.ended then none else view s i := view_reap e s i
  cases f with
  | ping =>
    simp only [SFrame.item, handle] at h
    split at h
    · simp at h
    · simp only [Option.some.injEq] at h; subst h; rfl
  | close =>
    simp only [SFrame.item, handle] at h
    split at h
    · simp at h
    · split at h
      · simp at h
      · simp only [Option.some.injEq] at h; subst h; rfl
  | ready => simp only [SFrame.item, handle, Option.some.injEq] at h; subst h; rfl
  | services => simp only [SFrame.item, handle, Option.some.injEq] at h; subst h; rfl
  | info a b => simp only [SFrame.item, handle, Option.some.injEq] at h; subst h; rfl
  | reconnect => simp [SFrame.Valid] at hv
  | open_ id si p =>
    simp only [SFrame.item, handle, Option.some.injEq] at h
    subst h
    simp only [ownPeer, handleOpen]
    cases hx : isXP p with
    | false =>
      simp only [Bool.false_eq_true, if_false, false_and, and_false]
      split <;> rfl
    | true =>
      simp only [if_true, true_and]
      cases hk : e.p2pOk with
      | false => simp only [Bool.false_eq_true, if_false, and_false]; rfl
      | true =>
        simp only [if_true, and_true, AMap.get_set, hp]
  | data id p =>
    simp only [SFrame.item, handle, Option.some.injEq] at h
    subst h
    simp only [ownPeer, handleData]
    cases ht : (reap e s).tasks.get id with
    | some j =>
      have : ¬ (id = i ∧ (view s i = none ∨ i ∈ e.ended)) := by
        rintro ⟨rfl, hh⟩
        have : (reap e s).tasks.get id = none := by
          rw [tasks_none_iff hi2, hvw]
          rcases hh with hh | hh
          · simp [hh]
          · simp [hh]
        rw [ht] at this; cases this
      rw [if_neg this]
      rfl
    | none =>
      have hnone : id = i → (view s i = none ∨ i ∈ e.ended) := by
        rintro rfl
        rw [tasks_none_iff hi2, hvw] at ht
        by_cases hh : id ∈ e.ended
        · exact Or.inr hh
        · rw [if_neg hh] at ht; exact Or.inl ht
      simp only [hp]
      cases hq : s.peers.get id with
      | none =>
        simp only
        by_cases hii : id = i
        · subst hii; rw [if_pos ⟨rfl, hnone rfl⟩, hp, hq]; rfl
        · rw [if_neg (by simp [hii]), hp]
      | some q =>
        simp only [AMap.get_set, hp]
        by_cases hii : id = i
        · subst hii; rw [if_pos rfl, if_pos ⟨rfl, hnone rfl⟩, hq]; rfl
        · rw [if_neg (by simp [hii]), if_neg (by simp [hii])]
  | closeTask id =>
    simp only [SFrame.item, handle, Option.some.injEq] at h
    subst h
    simp only [ownPeer, handleClose]
    split <;> rfl

theorem run_peers (nsvc : Nat) (hn : nsvc < 65536) (h : List (SFrame × Env)) (s : CState) (hi : CInv s)
    (hv : ∀ x ∈ h, x.1.Valid nsvc) (tail : Bytes)
    (hr : (runC nsvc (h.map (·.2)) s (encAll (h.map (·.1)) ++ tail)).running = true) (i : Nat) :
    (runC nsvc (h.map (·.2)) s (encAll (h.map (·.1)) ++ tail)).st.peers.get i =
      (pairRun i (view s i, s.peers.get i) h).2 := by
  induction h generalizing s with
  | nil => rfl
  | cons x h ih =>
    obtain ⟨f, e⟩ := x
    have hvf : f.Valid nsvc := hv (f, e) (by simp)
    have henc : encAll (((f, e) :: h).map (·.1)) ++ tail = f.enc ++ (encAll (h.map (·.1)) ++ tail) := by
      simp [encAll]
    rw [henc] at hr ⊢
    simp only [List.map_cons, runC, parseC_enc nsvc hn f hvf] at hr ⊢
    cases hh : handle e (reap e s) f.item with
    | none => rw [hh] at hr; simp at hr
    | some s' =>
      rw [hh] at hr
      simp only at hr ⊢
      obtain ⟨hi', hview⟩ := handle_spec nsvc e s s' hi f hvf hh
      rw [ih s' hi' (fun y hy => hv y (by simp [hy])) hr, hview i,
        handle_peers nsvc e s s' hi (CInv.reap hi e) f hvf hh i]
      rfl

/-- **C10** (peer-to-peer requests). After any sequence of frames the peer-to-peer session of every task `i` has been
handed what `i`'s own frames carry: the frames of all other tasks and the control signals could be deleted from the
history without changing it. -/
theorem p2p_demultiplexes (nsvc : Nat) (hn : nsvc < 65536) (h : List (SFrame × Env))
    (hv : ∀ x ∈ h, x.1.Valid nsvc) (tail : Bytes)
    (hr : (runC nsvc (h.map (·.2)) .init (encAll (h.map (·.1)) ++ tail)).running = true) (i : Nat) :
    (runC nsvc (h.map (·.2)) .init (encAll (h.map (·.1)) ++ tail)).st.peers.get i =
      (pairRun i (none, none) (h.filter (concerns i))).2 := by
  rw [run_peers nsvc hn h .init CInv.init hv tail hr i, pairRun_filter]; rfl

theorem pairRun_session (i : Nat) : ∀ (ps : List Bytes) (h : List (SFrame × Env)) (g : Bytes),
    h.map (·.1) = ps.map (SFrame.data i) →
    pairRun i (none, some g) h = (none, some (g ++ ps.flatten)) := by
  intro ps
  induction ps with
  | nil => intro h g hf; simp at hf; subst hf; simp [pairRun]
  | cons p ps ih =>
    intro h g hf
    match h, hf with
    | (a, e) :: h', hf =>
      simp only [List.map_cons, List.cons.injEq] at hf
      obtain ⟨rfl, hf⟩ := hf
      have := ih h' (g ++ p) hf
      simp only [pairRun, List.foldl_cons] at this ⊢
      have h1 : own i none (SFrame.data i p) e = none := by simp [own]
      have h2 : ownPeer i none (some g) (SFrame.data i p) e = some (g ++ p) := by simp [ownPeer]
      rw [h1, h2, this]
      simp

/-- **C10** (peer-to-peer requests, delivery). A connection whose first bytes are `XP` opens a session, and the session
is handed exactly the bytes of its frames in order, however they are interleaved with frames of other connections. -/
theorem p2p_bytes_reach_the_session (nsvc : Nat) (hn : nsvc < 65536) (i si : Nat) (p : Bytes) (ps : List Bytes)
    (h : List (SFrame × Env)) (hv : ∀ x ∈ h, x.1.Valid nsvc) (hclose : ∀ x ∈ h, x.1 ≠ .close)
    (hmine : (h.filter (fun x => x.1.isOf i)).map (·.1) = .open_ i si p :: ps.map (SFrame.data i))
    (hxp : p.take 2 = [0x58, 0x50]) (hend : ∀ x ∈ h, i ∉ x.2.ended) (hok : ∀ x ∈ h, x.2.p2pOk = true) (tail : Bytes) :
    (runC nsvc (h.map (·.2)) .init (encAll (h.map (·.1)) ++ tail)).st.peers.get i = some (p ++ ps.flatten) := by
  have hr : (runC nsvc (h.map (·.2)) .init (encAll (h.map (·.1)) ++ tail)).running = true := by
    rcases client_demultiplexes nsvc hn h hv tail with ⟨a, _, _⟩ | ⟨_, k, x, hx, hd, _⟩
    · exact a
    · exfalso
      have hmem := List.mem_of_getElem? hx
      rcases hd with hd | ⟨_, y, hy, hyc⟩
      · exact hclose x hmem hd
      · exact hclose y (List.mem_of_mem_take hy) hyc
  rw [p2p_demultiplexes nsvc hn h hv tail hr i, filter_concerns_isOf i h hend]
  have hx : isXP p = true := by simp [isXP, hxp]
  generalize hl : h.filter (fun x => x.1.isOf i) = l at hmine
  match l, hmine with
  | (a, e) :: l', hf =>
    simp only [List.map_cons, List.cons.injEq] at hf
    obtain ⟨rfl, hf⟩ := hf
    have he : (SFrame.open_ i si p, e) ∈ h := by
      have : (SFrame.open_ i si p, e) ∈ h.filter (fun x => x.1.isOf i) := by rw [hl]; simp
      exact (List.mem_filter.mp this).1
    have hk : e.p2pOk = true := hok _ he
    have := pairRun_session i ps l' p hf
    simp only [pairRun, List.foldl_cons] at this ⊢
    have h1 : own i none (SFrame.open_ i si p) e = none := by simp [own, hx]
    have h2 : ownPeer i none none (SFrame.open_ i si p) e = some p := by simp [ownPeer, hx, hk]
    rw [h1, h2, this]

/-- Two sessions and an ordinary connection, interleaved. -/
example :
    let ok : Env := ⟨[], true, none, true⟩
    let h : List (SFrame × Env) := [(.open_ 7 0 (ascii "XPab"), ok), (.open_ 9 0 (ascii "GET"), ok), (.data 7 (ascii "cd"), ok),
      (.open_ 8 0 (ascii "XP"), ok), (.data 9 (ascii "/"), ok), (.data 8 (ascii "z"), ok), (.data 7 (ascii "e"), ok)]
    (runC 1 (h.map (·.2)) .init (encAll (h.map (·.1)))).st.peers = [(7, ascii "XPabcde"), (8, ascii "XPz")] ∧
    (h.filter (fun x => x.1.isOf 7)).map (·.1) = .open_ 7 0 (ascii "XPab") :: [ascii "cd", ascii "e"].map (SFrame.data 7) := by
  decide +kernel

/-! ## C51: the ping that ends a closing tunnel -/

/-- Pings received since the last frame of a connection; signals in between do not count. -/
def pingsAfter (n : Nat) : List CItem → Nat
  | [] => n
  | .ping :: l => pingsAfter (n + 1) l
  | .open_ _ _ _ _ :: l => pingsAfter 0 l
  | .data _ _ :: l => pingsAfter 0 l
  | .closeTask _ :: l => pingsAfter 0 l
  | .other _ _ :: l => pingsAfter 0 l
  | _ :: l => pingsAfter n l

theorem pingsAfter_mono (l : List CItem) : ∀ {a b : Nat}, a ≤ b → pingsAfter a l ≤ pingsAfter b l := by
  induction l with
  | nil => intro a b h; exact h
  | cons x l ih =>
    intro a b h
    cases x <;> simp only [pingsAfter]
    case ping => exact ih (by omega)
    case open_ => exact Nat.le_refl _
    case data => exact Nat.le_refl _
    case closeTask => exact Nat.le_refl _
    case other => exact Nat.le_refl _
    all_goals exact ih h

theorem handle_pings (e : Env) (s s' : CState) (it : CItem) (l : List CItem) (h : handle e s it = some s') :
    pingsAfter s'.lastPing l ≤ pingsAfter s.lastPing (it :: l) := by
  cases it with
  | ping =>
    simp only [handle] at h
    split at h
    · simp at h
    · simp only [Option.some.injEq] at h; subst h
      simp only [pingsAfter]
      apply pingsAfter_mono
      split <;> omega
  | close =>
    simp only [handle] at h
    split at h
    · simp at h
    · split at h
      · simp at h
      · simp only [Option.some.injEq] at h; subst h; exact Nat.le_refl _
  | ready => simp only [handle, Option.some.injEq] at h; subst h; exact Nat.le_refl _
  | services => simp only [handle, Option.some.injEq] at h; subst h; exact Nat.le_refl _
  | error => simp [handle] at h
  | info => simp only [handle, Option.some.injEq] at h; subst h; exact Nat.le_refl _
  | badService => simp [handle] at h
  | open_ id si p x => simp only [handle, Option.some.injEq] at h; subst h; exact Nat.le_refl _
  | data id p => simp only [handle, Option.some.injEq] at h; subst h; exact Nat.le_refl _
  | closeTask id => simp only [handle, Option.some.injEq] at h; subst h; exact Nat.le_refl _
  | other a b => simp only [handle, Option.some.injEq] at h; subst h; exact Nat.le_refl _

theorem ping_end_aux (nsvc : Nat) (es : List Env) (s : CState) (inp : Bytes) (h : (runC nsvc es s inp).running = false) :
    ∃ its last, CutC nsvc inp (its ++ [last]) (runC nsvc es s inp).rest ∧ (last = .ping → 3 ≤ pingsAfter s.lastPing its + 1) := by
  induction es generalizing s inp with
  | nil => simp [runC] at h
  | cons e es ih =>
    simp only [runC] at h ⊢
    cases hp : parseC nsvc inp with
    | none => rw [hp] at h; simp at h
    | some x =>
      obtain ⟨it, rest⟩ := x
      rw [hp] at h
      simp only at h ⊢
      cases hh : handle e (reap e s) it with
      | none =>
        refine ⟨[], it, .cons hp (.nil _), ?_⟩
        rintro rfl
        simp only [handle] at hh
        split at hh
        · rename_i hc
          simp only [Bool.and_eq_true, decide_eq_true_eq] at hc
          exact hc.1.2
        · simp at hh
      | some s' =>
        rw [hh] at h
        simp only at h ⊢
        obtain ⟨its, last, hc, hr⟩ := ih s' rest h
        refine ⟨it :: its, last, .cons hp hc, fun hl => ?_⟩
        have h1 := hr hl
        have h2 := handle_pings e (reap e s) s' it its hh
        have h3 : (reap e s).lastPing = s.lastPing := rfl
        rw [h3] at h2
        omega

theorem CutC.last_unique {nsvc : Nat} {inp : Bytes} {a b : List CItem} {r r' : Bytes} (h : CutC nsvc inp a r)
    (h' : CutC nsvc inp b r') (hl : a.length = b.length) : a = b := by
  induction h generalizing b with
  | nil => cases b with
    | nil => rfl
    | cons => simp at hl
  | cons hp _ ih =>
    cases h' with
    | nil => simp at hl
    | cons hp' h2 =>
      rw [hp] at hp'
      simp only [Option.some.injEq, Prod.mk.injEq] at hp'
      obtain ⟨rfl, rfl⟩ := hp'
      rw [ih h2 (by simpa using hl)]

/-- **C51** (client). If it is a ping that ends the tunnel, it is at least the third since the last frame of a
connection: a tunnel that was asked to close is not given up while connections are still being opened on it. -/
theorem closing_ping_is_third (nsvc : Nat) (es : List Env) (inp : Bytes) (h : (runC nsvc es .init inp).running = false) :
    ∃ its last, CutC nsvc inp (its ++ [last]) (runC nsvc es .init inp).rest ∧ (last = .ping → 2 ≤ pingsAfter 0 its) := by
  obtain ⟨its, last, h1, h2⟩ := ping_end_aux nsvc es .init inp h
  exact ⟨its, last, h1, fun hl => by have := h2 hl; simp only [CState.init] at this; omega⟩

theorem handle_ping_closing (e : Env) (s : CState) (hc : s.isClosing = true) (ht : s.tasks = []) :
    handle e s .ping = none ∨ ∃ s', handle e s .ping = some s' ∧ s.lastPing + 1 < 3 ∧ s'.isClosing = true ∧ s'.tasks = [] ∧
      s'.lastPing = s.lastPing + 1 := by
  simp only [handle, hc, ht, List.isEmpty_nil, Bool.and_true, Bool.true_and, decide_eq_true_eq]
  by_cases h : s.lastPing + 1 ≥ 3
  · exact Or.inl (if_pos h)
  · refine Or.inr ⟨_, if_neg h, by omega, rfl, rfl, ?_⟩
    show (if s.lastPing + 1 ≥ 6 then 0 else s.lastPing + 1) = _
    rw [if_neg (by omega)]

theorem reap_nil (e : Env) (s : CState) (h : s.tasks = []) : (reap e s).tasks = [] := by
  simp only [reap, h]
  generalize e.ended = l
  induction l with
  | nil => rfl
  | cons a l ih => simpa [AMap.del] using ih

theorem runC_ping_none {nsvc : Nat} {e : Env} {es : List Env} {s : CState} {tail : Bytes}
    (h : handle e (reap e s) .ping = none) : (runC nsvc (e :: es) s (SFrame.ping.enc ++ tail)).running = false := by
  have hp : parseC nsvc (SFrame.ping.enc ++ tail) = some (.ping, tail) := by
    simp [parseC, SFrame.enc, u32?_be32 (n := sigPing) (by decide)]
  simp only [runC, hp, h]

theorem runC_ping_some {nsvc : Nat} {e : Env} {es : List Env} {s s' : CState} {tail : Bytes}
    (h : handle e (reap e s) .ping = some s') :
    runC nsvc (e :: es) s (SFrame.ping.enc ++ tail) = runC nsvc es s' tail := by
  have hp : parseC nsvc (SFrame.ping.enc ++ tail) = some (.ping, tail) := by
    simp [parseC, SFrame.enc, u32?_be32 (n := sigPing) (by decide)]
  simp only [runC, hp, h]

/-- **C51** (client). A tunnel that was asked to close and has no connection ends within three pings. -/
theorem idle_closing_tunnel_ends (nsvc : Nat) (e1 e2 e3 : Env) (s : CState) (hc : s.isClosing = true) (ht : s.tasks = [])
    (tail : Bytes) :
    (runC nsvc [e1, e2, e3] s (SFrame.ping.enc ++ (SFrame.ping.enc ++ (SFrame.ping.enc ++ tail)))).running = false := by
  rcases handle_ping_closing e1 (reap e1 s) hc (reap_nil e1 s ht) with h1 | ⟨s1, h1, l1, c1, t1, p1⟩
  · exact runC_ping_none h1
  rw [runC_ping_some h1]
  rcases handle_ping_closing e2 (reap e2 s1) c1 (reap_nil e2 s1 t1) with h2 | ⟨s2, h2, l2, c2, t2, p2⟩
  · exact runC_ping_none h2
  rw [runC_ping_some h2]
  rcases handle_ping_closing e3 (reap e3 s2) c2 (reap_nil e3 s2 t2) with h3 | ⟨s3, h3, l3, _, _, _⟩
  · exact runC_ping_none h3
  · exfalso
    have q1 : (reap e3 s2).lastPing = s2.lastPing := rfl
    have q2 : (reap e2 s1).lastPing = s1.lastPing := rfl
    omega

/-- A tunnel asked to close whose connection has ended: the third ping ends it, not the second. -/
example :
    let ok : Env := ⟨[], true, none, true⟩
    let fin : Env := ⟨[1], true, none, true⟩
    let fs : List SFrame := [.open_ 1 0 (ascii "hi"), .close, .ping, .data 1 [], .ping, .ping, .ping]
    (runC 1 [ok, ok, ok, ok, fin, ok] .init (encAll fs)).running = true ∧
    (runC 1 [ok, ok, ok, ok, fin, ok, ok] .init (encAll fs)).running = false := by
  decide +kernel

end Verif.Tunnel
