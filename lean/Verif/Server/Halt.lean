import Verif.Common
set_option linter.unusedSimpArgs false
set_option linter.unusedVariables false
/-!
# C153: how long the server's shutdown takes (libcs/server/server.go:645-729, libcs/server/client.go:319-341,
libcs/conn/conn.go:42-57, 206-235, libcs/lib/export/lib.go:103-133)

`Shutdown` tells every client on one of its tunnels to connect again (`reconnect`), waits for the visitors (C72) and closes every tunnel,
each with a signal of its own (`close`). Both go through the clients one after the other, take the client's lock, and write; a write to
a tunnel whose client does not read waits until the timeout `T` (0: none). `Close` only closes.

A client is given by the time after which its lock is free and, in the order in which the map is walked, the times after which its
tunnels take a signal (`none`: never). Simplified: a tunnel is written to by nobody else meanwhile (otherwise a write may take longer,
C152), a client's lock and tunnels are the same in both rounds, and everything else takes no time. The unit is a second.
-/
namespace Verif.Server.Halt

structure Client where
  id : Nat
  lock : Option Nat
  tunnels : List (Option Nat)
deriving DecidableEq

/-- libcs/conn/conn.go:42-57: how long a write takes; `none`: it does not end. -/
def took (T : Nat) (w : Option Nat) : Option Nat :=
  if T = 0 then w else some (match w with | some k => min k T | none => T)

/-- libcs/server/client.go:331-341 `reconnect` of every client, libcs/server/server.go:702-707: who was told (that is, when a write to the
client began), and when the round ended. -/
def reconnectAll (T : Nat) : Nat → List Client → List (Nat × Nat) × Option Nat
  | t, [] => ([], some t)
  | t, c :: cs =>
    match c.lock with
    | none => ([], none)
    | some l =>
      match c.tunnels with
      | [] => reconnectAll T (t + l) cs
      | w :: _ =>
        match took T w with
        | none => ([(c.id, t + l)], none)
        | some d => let r := reconnectAll T (t + l + d) cs; ((c.id, t + l) :: r.1, r.2)

/-- libcs/server/client.go:322-325: the tunnels of one client, with the client's number and when each was closed. -/
def closeTunnels (T id : Nat) : Nat → List (Option Nat) → List (Nat × Nat) × Option Nat
  | t, [] => ([], some t)
  | t, w :: ws =>
    match took T w with
    | none => ([], none)
    | some d => let r := closeTunnels T id (t + d) ws; ((id, t + d) :: r.1, r.2)

/-- libcs/server/client.go:319-329 `close` of every client, libcs/server/server.go:666-671, 722-727. -/
def closeAll (T : Nat) : Nat → List Client → List (Nat × Nat) × Option Nat
  | t, [] => ([], some t)
  | t, c :: cs =>
    match c.lock with
    | none => ([], none)
    | some l =>
      match closeTunnels T c.id (t + l) c.tunnels with
      | (a, none) => (a, none)
      | (a, some t') => let r := closeAll T t' cs; (a ++ r.1, r.2)

structure Outcome where
  told : List (Nat × Nat)
  closed : List (Nat × Nat)
  ended : Option Nat
deriving DecidableEq

/-- libcs/server/server.go:683-729 `Shutdown`; `rounds` of 3 s are waited for visitors, at most 40 (C72). -/
def shutdown (T rounds : Nat) (cs : List Client) : Outcome :=
  match reconnectAll T 0 cs with
  | (told, none) => ⟨told, [], none⟩
  | (told, some t) => let r := closeAll T (t + 3 * min rounds 40) cs; ⟨told, r.1, r.2⟩

/-- libcs/server/server.go:645-674 `Close`. -/
def close (T : Nat) (cs : List Client) : Outcome := let r := closeAll T 0 cs; ⟨[], r.1, r.2⟩

/-- libcs/lib/export/lib.go:112-116: the process ends itself 3 minutes after the signal (`SIGINT`: never). -/
def kill : Nat := 180

/-! ## Specification -/

/-- Every lock is free after at most `L`. -/
def Locks (L : Nat) (cs : List Client) : Prop := ∀ c ∈ cs, ∃ l, c.lock = some l ∧ l ≤ L

/-- The clients that have a tunnel, in order. -/
def reachable (cs : List Client) : List Nat := (cs.filter (fun c => c.tunnels != [])).map (·.id)

/-- One entry for every tunnel. -/
def allTunnels (cs : List Client) : List Nat := cs.flatMap (fun c => List.replicate c.tunnels.length c.id)

def tunnelCount : List Client → Nat
  | [] => 0
  | c :: cs => c.tunnels.length + tunnelCount cs

/-! ## Proofs -/

theorem took_some (T : Nat) (w : Option Nat) (h : 0 < T ∨ w ≠ none) : ∃ d, took T w = some d ∧ (0 < T → d ≤ T) := by
  unfold took
  by_cases hT : T = 0
  · rw [if_pos hT]
    rcases h with h | h
    · omega
    · cases w with
      | none => exact absurd rfl h
      | some k => exact ⟨k, rfl, fun hx => by omega⟩
  · rw [if_neg hT]
    cases w with
    | none => exact ⟨T, rfl, fun _ => Nat.le_refl _⟩
    | some k => exact ⟨min k T, rfl, fun _ => Nat.min_le_right _ _⟩

theorem reconnect_spec {T L : Nat} (hT : 0 < T) : ∀ (cs : List Client) (t : Nat), Locks L cs →
    (reconnectAll T t cs).1.map (·.1) = reachable cs ∧ ∃ t', (reconnectAll T t cs).2 = some t' ∧ t ≤ t' ∧
    t' ≤ t + cs.length * (L + T) := by
  intro cs
  induction cs with
  | nil => intro t _; exact ⟨rfl, t, rfl, Nat.le_refl _, by simp⟩
  | cons c cs ih =>
    intro t hl
    obtain ⟨l, h1, h2⟩ := hl c (by simp)
    have hl' : Locks L cs := fun x hx => hl x (by simp [hx])
    have hm : (cs.length + 1) * (L + T) = cs.length * (L + T) + (L + T) := Nat.succ_mul _ _
    unfold reconnectAll
    simp only [h1]
    match hw : c.tunnels with
    | [] =>
      simp only
      obtain ⟨i1, t', i2, i3, i4⟩ := ih (t + l) hl'
      refine ⟨?_, t', i2, by omega, by rw [List.length_cons, hm]; omega⟩
      rw [i1]; simp [reachable, hw]
    | w :: ws =>
      obtain ⟨d, hd, hd2⟩ := took_some T w (Or.inl hT)
      have := hd2 hT
      simp only [hd]
      obtain ⟨i1, t', i2, i3, i4⟩ := ih (t + l + d) hl'
      refine ⟨?_, t', i2, by omega, by rw [List.length_cons, hm]; omega⟩
      rw [List.map_cons, i1]; simp [reachable, hw]

theorem tunnels_spec {T : Nat} (id : Nat) (hT : 0 < T) : ∀ (ws : List (Option Nat)) (t : Nat),
    (closeTunnels T id t ws).1.map (·.1) = List.replicate ws.length id ∧ ∃ t', (closeTunnels T id t ws).2 = some t' ∧ t ≤ t' ∧
    t' ≤ t + ws.length * T := by
  intro ws
  induction ws with
  | nil => intro t; exact ⟨rfl, t, rfl, Nat.le_refl _, by simp⟩
  | cons w ws ih =>
    intro t
    obtain ⟨d, hd, hd2⟩ := took_some T w (Or.inl hT)
    have := hd2 hT
    have hm : (ws.length + 1) * T = ws.length * T + T := Nat.succ_mul _ _
    unfold closeTunnels
    simp only [hd]
    obtain ⟨i1, t', i2, i3, i4⟩ := ih (t + d)
    refine ⟨?_, t', i2, by omega, by rw [List.length_cons, hm]; omega⟩
    rw [List.map_cons, i1]; rfl

theorem close_spec {T L : Nat} (hT : 0 < T) : ∀ (cs : List Client) (t : Nat), Locks L cs →
    (closeAll T t cs).1.map (·.1) = allTunnels cs ∧ ∃ t', (closeAll T t cs).2 = some t' ∧ t ≤ t' ∧
    t' ≤ t + cs.length * L + tunnelCount cs * T := by
  intro cs
  induction cs with
  | nil => intro t _; exact ⟨rfl, t, rfl, Nat.le_refl _, by omega⟩
  | cons c cs ih =>
    intro t hl
    obtain ⟨l, h1, h2⟩ := hl c (by simp)
    have hl' : Locks L cs := fun x hx => hl x (by simp [hx])
    have hm : (cs.length + 1) * L = cs.length * L + L := Nat.succ_mul _ _
    have hm2 : (c.tunnels.length + tunnelCount cs) * T = c.tunnels.length * T + tunnelCount cs * T := Nat.add_mul _ _ _
    obtain ⟨a1, t1, a2, a3, a4⟩ := tunnels_spec c.id hT c.tunnels (t + l)
    unfold closeAll
    simp only [h1]
    match hc : closeTunnels T c.id (t + l) c.tunnels with
    | (a, none) => rw [hc] at a2; cases a2
    | (a, some t2) =>
      rw [hc] at a1 a2
      simp only [Option.some.injEq] at a1 a2
      subst a2
      simp only
      obtain ⟨i1, t', i2, i3, i4⟩ := ih t2 hl'
      refine ⟨?_, t', i2, by omega, by rw [List.length_cons, hm, tunnelCount, hm2]; omega⟩
      rw [List.map_append, a1, i1]; rfl

/-- **With a timeout the shutdown ends**, every client is told once, every tunnel is closed once, and it takes at most two minutes, the
locks, and one timeout for every client and every tunnel. Partial: this may be more than the three minutes that the process has
(`late_clients_not_told`), and without a timeout it may not end (`no_timeout_never_ends`). -/
theorem shutdown_ends_partial (T L rounds : Nat) (cs : List Client) (hT : 0 < T) (hl : Locks L cs) :
    (shutdown T rounds cs).told.map (·.1) = reachable cs ∧ (shutdown T rounds cs).closed.map (·.1) = allTunnels cs ∧
    ∃ t, (shutdown T rounds cs).ended = some t ∧ t ≤ 120 + cs.length * (2 * L + T) + tunnelCount cs * T := by
  obtain ⟨a1, t1, a2, a3, a4⟩ := reconnect_spec hT cs 0 hl
  unfold shutdown
  match hr : reconnectAll T 0 cs with
  | (told, none) => rw [hr] at a2; cases a2
  | (told, some t2) =>
    rw [hr] at a1 a2
    simp only [Option.some.injEq] at a1 a2
    subst a2
    simp only
    obtain ⟨b1, t', b2, b3, b4⟩ := close_spec hT cs (t2 + 3 * min rounds 40) hl
    refine ⟨a1, b1, t', b2, ?_⟩
    have e : cs.length * (2 * L + T) = cs.length * (L + T) + cs.length * L := by
      rw [← Nat.mul_add]; congr 1; omega
    have : min rounds 40 ≤ 40 := Nat.min_le_right _ _
    omega

/-- `Close` ends, too. -/
theorem close_ends_partial (T L : Nat) (cs : List Client) (hT : 0 < T) (hl : Locks L cs) :
    (close T cs).closed.map (·.1) = allTunnels cs ∧ ∃ t, (close T cs).ended = some t ∧ t ≤ cs.length * L + tunnelCount cs * T := by
  obtain ⟨b1, t', b2, b3, b4⟩ := close_spec hT cs 0 hl
  exact ⟨b1, t', b2, by omega⟩

theorem reconnect_after (T : Nat) : ∀ (cs : List Client) (t : Nat) (x : Nat × Nat), x ∈ (reconnectAll T t cs).1 → t ≤ x.2 := by
  intro cs
  induction cs with
  | nil => intro t x h; simp [reconnectAll] at h
  | cons c cs ih =>
    intro t x h
    unfold reconnectAll at h
    match hc : c.lock, hw : c.tunnels with
    | none, _ => simp [hc] at h
    | some l, [] => simp only [hc, hw] at h; have := ih _ _ h; omega
    | some l, w :: ws =>
      simp only [hc, hw] at h
      match hd : took T w with
      | none => simp only [hd, List.mem_singleton] at h; subst h; show t ≤ t + l; omega
      | some d =>
        simp only [hd, List.mem_cons] at h
        rcases h with rfl | h
        · show t ≤ t + l; omega
        · have := ih _ _ h; omega

theorem late (T : Nat) (hT : 0 < T) : ∀ (stuck rest : List Client) (t : Nat) (x : Nat × Nat),
    (∀ c ∈ stuck, c.tunnels.head? = some none) → x ∈ (reconnectAll T t (stuck ++ rest)).1 →
    (∀ c ∈ stuck, c.id ≠ x.1) → t + stuck.length * T ≤ x.2 := by
  intro stuck
  induction stuck with
  | nil => intro rest t x _ hx _; have := reconnect_after T rest t x hx; simp; exact this
  | cons c stuck ih =>
    intro rest t x hs hx hn
    have hc := hs c (by simp)
    have hm : (stuck.length + 1) * T = stuck.length * T + T := Nat.succ_mul _ _
    rw [List.cons_append] at hx
    unfold reconnectAll at hx
    match hk : c.lock, hw : c.tunnels with
    | none, _ => simp [hk] at hx
    | some l, [] => rw [hw] at hc; simp at hc
    | some l, w :: ws =>
      rw [hw] at hc
      simp only [List.head?_cons, Option.some.injEq] at hc
      subst hc
      have hT0 : T ≠ 0 := by omega
      simp only [hk, hw, took, if_neg hT0, List.mem_cons] at hx
      rcases hx with hx | hx
      · exact absurd (by rw [hx]) (hn c (by simp))
      · have := ih rest (t + l + T) x (fun c hc => hs c (by simp [hc])) hx (fun c hc => hn c (by simp [hc]))
        rw [List.length_cons, hm]
        omega

/-- **Clients behind stalled ones are told too late**: with the default timeout of 90 s, two clients whose first tunnels do not take the
signal delay all later ones until the process has ended itself: they are never told to connect again. In general every stalled
client costs one timeout. -/
theorem late_clients_not_told (T rounds : Nat) (hT : 0 < T) (stuck rest : List Client)
    (hs : ∀ c ∈ stuck, c.tunnels.head? = some none) (hk : kill ≤ stuck.length * T) (x : Nat × Nat)
    (hx : x ∈ (shutdown T rounds (stuck ++ rest)).told) (hn : ∀ c ∈ stuck, c.id ≠ x.1) : kill ≤ x.2 := by
  have : x ∈ (reconnectAll T 0 (stuck ++ rest)).1 := by
    unfold shutdown at hx
    match hr : reconnectAll T 0 (stuck ++ rest) with
    | (a, none) => rw [hr] at hx; exact hx
    | (a, some t) => rw [hr] at hx; exact hx
  have := late T hT stuck rest 0 x hs this hn
  omega

/-- **Without a timeout one stalled client is enough**: neither the shutdown nor `Close` ends, nobody behind it is told, and (with
`Close`, on `SIGINT`) there is no timer that ends the process. -/
theorem no_timeout_never_ends (rounds : Nat) (pre post : List Client) (c : Client) (l : Nat)
    (hp : ∀ d ∈ pre, d.tunnels = []) (hl : Locks l pre) (hc : c.lock = some l) (hw : c.tunnels.head? = some none) :
    (shutdown 0 rounds (pre ++ c :: post)).ended = none ∧ (shutdown 0 rounds (pre ++ c :: post)).told.map (·.1) = [c.id] ∧
    (shutdown 0 rounds (pre ++ c :: post)).closed = [] ∧
    (close 0 (pre ++ c :: post)).ended = none ∧ (close 0 (pre ++ c :: post)).closed = [] := by
  have hcons : ∃ ws, c.tunnels = none :: ws := by
    cases ht : c.tunnels with
    | nil => rw [ht] at hw; simp at hw
    | cons w ws => rw [ht] at hw; simp at hw; exact ⟨ws, by rw [hw]⟩
  obtain ⟨ws, ht⟩ := hcons
  have r : ∀ t, ∃ u, reconnectAll 0 t (pre ++ c :: post) = ([(c.id, u)], none) := by
    induction pre with
    | nil => intro t; exact ⟨t + l, by simp [reconnectAll, hc, ht, took]⟩
    | cons d pre ih =>
      intro t
      obtain ⟨m, hm, -⟩ := hl d (by simp)
      obtain ⟨u, hu⟩ := ih (fun x hx => hp x (by simp [hx])) (fun x hx => hl x (by simp [hx])) (t + m)
      refine ⟨u, ?_⟩
      rw [List.cons_append, reconnectAll]
      simp only [hm, hp d (by simp)]
      exact hu
  have k : ∀ t, closeAll 0 t (pre ++ c :: post) = ([], none) := by
    clear r
    induction pre with
    | nil => intro t; simp [closeAll, closeTunnels, hc, ht, took]
    | cons d pre ih =>
      intro t
      obtain ⟨m, hm, -⟩ := hl d (by simp)
      rw [List.cons_append, closeAll]
      simp only [hm, hp d (by simp), closeTunnels]
      rw [ih (fun x hx => hp x (by simp [hx])) (fun x hx => hl x (by simp [hx])) (t + m)]
      rfl
  obtain ⟨u, hu⟩ := r 0
  refine ⟨?_, ?_, ?_, ?_, ?_⟩
  · simp only [shutdown, hu]
  · simp only [shutdown, hu]; rfl
  · simp only [shutdown, hu]
  · simp only [close, k]
  · simp only [close, k]

theorem tunnels_after (T id : Nat) : ∀ (ws : List (Option Nat)) (t : Nat),
    (∀ x ∈ (closeTunnels T id t ws).1, t ≤ x.2) ∧ ∀ u, (closeTunnels T id t ws).2 = some u → t ≤ u := by
  intro ws
  induction ws with
  | nil => intro t; simp [closeTunnels]
  | cons w ws ih =>
    intro t
    unfold closeTunnels
    match hd : took T w with
    | none => simp
    | some d =>
      obtain ⟨i1, i2⟩ := ih (t + d)
      refine ⟨fun x hx => ?_, fun u hu => ?_⟩
      · simp only [List.mem_cons] at hx
        rcases hx with rfl | hx
        · show t ≤ t + d; omega
        · have := i1 x hx; omega
      · have := i2 u hu; omega

theorem close_after (T : Nat) : ∀ (cs : List Client) (t : Nat), ∀ x ∈ (closeAll T t cs).1, t ≤ x.2 := by
  intro cs
  induction cs with
  | nil => intro t x hx; simp [closeAll] at hx
  | cons c cs ih =>
    intro t x hx
    unfold closeAll at hx
    match hl : c.lock with
    | none => simp [hl] at hx
    | some l =>
      simp only [hl] at hx
      obtain ⟨a1, a2⟩ := tunnels_after T c.id c.tunnels (t + l)
      match hc : closeTunnels T c.id (t + l) c.tunnels with
      | (a, none) =>
        rw [hc] at a1 hx
        have := a1 x hx; omega
      | (a, some t2) =>
        rw [hc] at a1 a2 hx
        have h2 := a2 t2 rfl
        simp only [List.mem_append] at hx
        rcases hx with hx | hx
        · have := a1 x hx; omega
        · have := ih t2 x hx; omega

theorem reconnect_before (T : Nat) : ∀ (cs : List Client) (t : Nat), 
    ∀ u, (reconnectAll T t cs).2 = some u → t ≤ u ∧ ∀ x ∈ (reconnectAll T t cs).1, x.2 ≤ u := by
  intro cs
  induction cs with
  | nil => intro t u h; simp [reconnectAll] at h ⊢; omega
  | cons c cs ih =>
    intro t u h
    unfold reconnectAll at h ⊢
    match hc : c.lock, hw : c.tunnels with
    | none, _ => simp [hc] at h
    | some l, [] =>
      simp only [hc, hw] at h ⊢
      obtain ⟨i1, i2⟩ := ih _ u h
      exact ⟨by omega, i2⟩
    | some l, w :: ws =>
      simp only [hc, hw] at h ⊢
      match hd : took T w with
      | none => simp [hd] at h
      | some d =>
        simp only [hd] at h ⊢
        obtain ⟨i1, i2⟩ := ih _ u h
        refine ⟨by omega, fun x hx => ?_⟩
        simp only [List.mem_cons] at hx
        rcases hx with rfl | hx
        · show t + l ≤ u; omega
        · exact i2 x hx

/-- **No tunnel is closed before every client was told and the visitors were waited for.** -/
theorem told_before_closed (T rounds : Nat) (cs : List Client) (x y : Nat × Nat) (hx : x ∈ (shutdown T rounds cs).told)
    (hy : y ∈ (shutdown T rounds cs).closed) : x.2 + 3 * min rounds 40 ≤ y.2 := by
  unfold shutdown at hx hy
  match hr : reconnectAll T 0 cs with
  | (told, none) => rw [hr] at hy; simp at hy
  | (told, some t) =>
    rw [hr] at hx hy
    have h := reconnect_before T cs 0 t (by rw [hr])
    rw [hr] at h
    have h1 := h.2 x hx
    have h2 := close_after T cs _ y hy
    omega

/-! ## Concrete cases -/

/-- Three healthy clients with two tunnels each: all told at once, everything closed after the wait. -/
example : shutdown 90 1 [⟨1, some 0, [some 0, some 0]⟩, ⟨2, some 0, [some 1]⟩] =
    ⟨[(1, 0), (2, 0)], [(1, 4), (1, 4), (2, 5)], some 5⟩ := by decide +kernel

/-- Two stalled clients in front of the third. -/
example : (shutdown 90 0 [⟨1, some 0, [none]⟩, ⟨2, some 0, [none]⟩, ⟨3, some 0, [some 0]⟩]).told = [(1, 0), (2, 90), (3, 180)] := by
  decide +kernel

example : (shutdown 0 0 [⟨1, some 0, []⟩, ⟨2, some 0, [none]⟩, ⟨3, some 0, [some 0]⟩]) = ⟨[(2, 0)], [], none⟩ := by decide +kernel

end Verif.Server.Halt
