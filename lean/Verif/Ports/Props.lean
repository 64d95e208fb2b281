import Verif.Ports.Inv
set_option linter.unusedSimpArgs false
set_option linter.unusedVariables false
/-! C27, C28: theorems about the port accounting. -/

namespace Verif.Ports
open Verif
variable {P : Nat → Nat} {cfg : Nat → List Nat}

/-! ## Frame: processing one service index leaves the other sockets of the client alone -/

theorem deleteLis_get_ne {s : St} {c si h : Nat} {v : Nat × Nat × Nat} (hv : AMap.get s.socks h = some v)
    (hne : ∀ l p, AMap.get (s.ls c) si = some l → l.sock ≠ some (h, p)) :
    AMap.get (deleteLis P s c si).socks h = some v := by
  unfold deleteLis
  split
  · exact hv
  · rename_i l hl
    simp only
    split
    · exact hv
    · rename_i h' p hs
      show AMap.get (AMap.del s.socks h') h = some v
      rw [AMap.get_del]
      have : ¬ h' = h := by
        rintro rfl
        exact hne l p hl hs
      simp [this, hv]

theorem Inv.openFor_deleteLis {s c si p si'} (hi : Inv P cfg noEx s) (hd : s.dead c = false)
    (h : OpenFor s p c si') (hne : si' ≠ si) : OpenFor (Ports.deleteLis P s c si) p c si' := by
  obtain ⟨h, hh⟩ := h
  refine ⟨h, deleteLis_get_ne hh ?_⟩
  intro l p' hl hs
  have := hi.lis c si l h p' hd hl hs (fun x => x)
  rw [hh] at this
  injection this with this
  simp at this
  exact hne this.2

theorem Inv.openFor_deleteMany {s c p si'} (sis : List Nat) (hi : Inv P cfg noEx s) (hd : s.dead c = false)
    (h : OpenFor s p c si') (hne : si' ∉ sis) : OpenFor (Ports.deleteMany P s c sis) p c si' := by
  induction sis generalizing s with
  | nil => exact h
  | cons si r ih =>
    simp only [List.mem_cons, not_or] at hne
    simp only [Ports.deleteMany]
    exact ih (hi.deleteLis si hd (fun x => x)) (by rw [deleteLis_dead]; exact hd)
      (hi.openFor_deleteLis hd h hne.1) hne.2

theorem openFor_doOpen {s : St} {c si opt port p c' si'} (hf : ∀ h v, AMap.get s.socks h = some v → h < s.next)
    (h : OpenFor s p c' si') : OpenFor (doOpen P s c si opt port) p c' si' := by
  obtain ⟨h, hh⟩ := h
  refine ⟨h, ?_⟩
  show AMap.get (AMap.set s.socks s.next (port, c, si)) h = _
  have := hf _ _ hh
  rw [AMap.get_set_ne _ _ (by omega)]
  exact hh

theorem openFor_doOpen_self {s : St} {c si opt port} : OpenFor (doOpen P s c si opt port) port c si :=
  ⟨s.next, by show AMap.get (AMap.set s.socks s.next (port, c, si)) s.next = _; simp⟩

theorem openFor_release {s : St} {q h p p' c c' si si'} (hs : AMap.get s.socks h = some (p, c, si))
    (ho : OpenFor s p' c' si') (hne : (c', si') ≠ (c, si)) : OpenFor (release s q h p) p' c' si' := by
  obtain ⟨h', hh⟩ := ho
  refine ⟨h', ?_⟩
  show AMap.get (AMap.del s.socks h) h' = _
  rw [AMap.get_del]
  have : ¬ h = h' := by
    rintro rfl
    rw [hs] at hh
    injection hh with hh
    simp at hh
    exact hne (by simp [hh.2.1, hh.2.2])
  simp [this, hh]

/-! ## The loop of `processTCPOptions` -/

/-- What the loop guarantees for a request, given the listener map `m` before the call. -/
def Served (m : AMap Nat Lis) (o : Nat × Opt) (p : Nat) : Prop :=
  (AMap.get m o.1 = none → o.2.random = false → p = o.2.port) ∧
  (∀ l h, AMap.get m o.1 = some l → l.sock = some (h, o.2.port) → p = o.2.port)

theorem loop_inv {c : Nat} {env : Nat → Env} (opts : List (Nat × Opt)) (s : St) (succ : List Nat)
    (ann : List (Nat × Nat)) (hi : Inv P cfg noEx s) (hd : s.dead c = false)
    (hn : (AMap.keys opts).Nodup)
    (ha : ∀ a ∈ ann, OpenFor s a.2 c a.1 ∧ a.1 ∉ AMap.keys opts) :
    (loop P c env s opts succ ann).2.dead = s.dead ∧
    (∀ si, (loop P c env s opts succ ann).1 = .failed si false →
      Inv P cfg noEx (loop P c env s opts succ ann).2) ∧
    (∀ ann', (loop P c env s opts succ ann).1 = .ok ann' →
      Inv P cfg noEx (loop P c env s opts succ ann).2 ∧
      (∀ a ∈ ann', OpenFor (loop P c env s opts succ ann).2 a.2 c a.1) ∧
      ann'.map Prod.fst = ann.map Prod.fst ++ AMap.keys opts ∧
      (∀ a ∈ ann, a ∈ ann') ∧
      (∀ o ∈ opts, ∃ p, (o.1, p) ∈ ann' ∧ Served (s.ls c) o p)) := by
  induction opts generalizing s succ ann with
  | nil =>
    refine ⟨rfl, by simp [loop], ?_⟩
    intro ann' h
    simp [loop] at h
    subst h
    refine ⟨hi, fun a h => (ha a h).1, by simp [AMap.keys], fun a h => h, by simp⟩
  | cons o r ih =>
    obtain ⟨si, o⟩ := o
    have hn' : si ∉ AMap.keys r ∧ (AMap.keys r).Nodup := by simpa [AMap.keys] using hn
    obtain ⟨i1, d1, k1, p1, e1, f1⟩ := hi.loadOrCreate (c := c) si o
    have hd1 : (loadOrCreate s c si o).2.dead c = false := by rw [d1]; exact hd
    have ha' : ∀ a ∈ ann, OpenFor s a.2 c a.1 ∧ a.1 ≠ si ∧ a.1 ∉ AMap.keys r := by
      intro a h
      have := ha a h
      simp only [AMap.keys, List.map_cons, List.mem_cons, not_or] at this
      exact ⟨this.1, this.2.1, this.2.2⟩
    have ho1 : ∀ p c' si', OpenFor s p c' si' → OpenFor (loadOrCreate s c si o).2 p c' si' := by
      intro p c' si' h; simpa [OpenFor, k1] using h
    have hlsrest : ∀ o' ∈ r, AMap.get ((loadOrCreate s c si o).2.ls c) o'.1 = AMap.get (s.ls c) o'.1 := by
      intro o' ho'
      refine f1 c o'.1 ?_
      intro h
      simp at h
      exact hn'.1 (h ▸ List.mem_map_of_mem ho')
    -- everything after opening a port
    have finish : ∀ (s2 : St) (p : Nat) (lopt : Opt), Inv P cfg (plus noEx c si) s2 → s2.dead = s.dead →
        p ∈ s2.pool (P c) → s2.ls = (loadOrCreate s c si o).2.ls →
        (∀ a ∈ ann, OpenFor s2 a.2 c a.1) → Served (s.ls c) (si, o) p →
        let L := loop P c env (doOpen P s2 c si lopt p) r (succ ++ [si]) (ann ++ [(si, p)])
        L.2.dead = s.dead ∧ (∀ si, L.1 = .failed si false → Inv P cfg noEx L.2) ∧
        (∀ ann', L.1 = .ok ann' → Inv P cfg noEx L.2 ∧
          (∀ a ∈ ann', OpenFor L.2 a.2 c a.1) ∧ ann'.map Prod.fst = ann.map Prod.fst ++ AMap.keys ((si, o) :: r) ∧
          (∀ a ∈ ann, a ∈ ann') ∧ (∀ o' ∈ (si, o) :: r, ∃ p, (o'.1, p) ∈ ann' ∧ Served (s.ls c) o' p)) := by
      intro s2 p lopt hx2 hdd hp hls hop hsv
      have hd2 : s2.dead c = false := by rw [hdd]; exact hd
      have i3 := hx2.doOpen (opt := lopt) (fun x => x) hd2 hp
      have ha3 : ∀ a ∈ ann ++ [(si, p)], OpenFor (doOpen P s2 c si lopt p) a.2 c a.1 ∧ a.1 ∉ AMap.keys r := by
        intro a h
        rcases List.mem_append.1 h with h | h
        · exact ⟨openFor_doOpen hx2.fresh (hop a h), (ha' a h).2.2⟩
        · simp at h; subst h; exact ⟨openFor_doOpen_self, hn'.1⟩
      obtain ⟨q1, q2, q3⟩ := ih (doOpen P s2 c si lopt p) (succ ++ [si]) (ann ++ [(si, p)]) i3 hd2 hn'.2 ha3
      refine ⟨q1.trans hdd, q2, ?_⟩
      intro ann' hok
      obtain ⟨w1, w2, w3, w4, w5⟩ := q3 ann' hok
      refine ⟨w1, w2, ?_, fun a h => w4 a (by simp [h]), ?_⟩
      · rw [w3]; simp [AMap.keys]
      · intro o' ho'
        rcases List.mem_cons.1 ho' with h | h
        · subst h; exact ⟨p, w4 _ (by simp), hsv⟩
        · obtain ⟨p', hp', hs'⟩ := w5 o' h
          refine ⟨p', hp', ?_⟩
          have hne : ¬ (o'.1 = si) := by
            rintro rfl
            exact hn'.1 (List.mem_map_of_mem h)
          have e : AMap.get ((doOpen P s2 c si lopt p).ls c) o'.1 = AMap.get (s.ls c) o'.1 := by
            show AMap.get (if c = c then AMap.set (s2.ls c) si _ else s2.ls c) o'.1 = _
            rw [if_pos rfl, AMap.get_set_ne _ _ (fun x => hne x.symm), hls]
            exact hlsrest o' h
          simpa [Served, e] using hs'
    simp only [loop]
    cases hs : (loadOrCreate s c si o).1.sock with
    | none =>
      simp only
      have hx : Inv P cfg (plus noEx c si) (loadOrCreate s c si o).2 :=
        i1.weaken (by intro l' h'; rw [e1] at h'; injection h' with h'; subst h'; exact hs)
      cases hop : openTCPPort P (loadOrCreate s c si o).2 c si (loadOrCreate s c si o).1 (env si) with
      | mk po s2 =>
        cases po with
        | none =>
          simp only
          have := openTCPPort_none hop
          subst this
          refine ⟨by rw [deleteMany_dead]; exact d1, ?_, by simp⟩
          intro si' _
          exact i1.deleteMany succ hd1 (fun _ _ x => x)
        | some p =>
          simp only
          obtain ⟨hp, rfl, hfix⟩ := openTCPPort_some hop
          refine finish _ p _ hx d1 hp rfl (fun a h => ho1 _ _ _ (ha' a h).1) ⟨?_, ?_⟩
          · intro hnone hr
            have : (loadOrCreate s c si o).1 = { sock := none, opt := o } := by
              simp only at hnone
              simp [loadOrCreate, hnone]
            rw [this] at hfix
            exact hfix hr
          · intro l h hl hsl
            have : (loadOrCreate s c si o).1 = l := by
              simp only at hl
              simp [loadOrCreate, hl]
            rw [this] at hs
            rw [hs] at hsl
            simp at hsl
    | some x =>
      obtain ⟨h, port⟩ := x
      simp only
      have hsock := i1.lis c si _ h port hd1 e1 hs (fun x => x)
      have hold : AMap.get (s.ls c) si = some (loadOrCreate s c si o).1 := by
        cases hg : AMap.get (s.ls c) si with
        | some l => simp [loadOrCreate, hg]
        | none => simp [loadOrCreate, hg] at hs
      by_cases hk : (decide (port = o.port) || o.random) = true
      · simp only [hk, if_true]
        have ha3 : ∀ a ∈ ann ++ [(si, port)], OpenFor (loadOrCreate s c si o).2 a.2 c a.1 ∧ a.1 ∉ AMap.keys r := by
          intro a h'
          rcases List.mem_append.1 h' with h' | h'
          · exact ⟨ho1 _ _ _ (ha' a h').1, (ha' a h').2.2⟩
          · simp at h'; subst h'; exact ⟨⟨h, hsock⟩, hn'.1⟩
        obtain ⟨q1, q2, q3⟩ := ih (loadOrCreate s c si o).2 succ (ann ++ [(si, port)]) i1 hd1 hn'.2 ha3
        refine ⟨q1.trans d1, q2, ?_⟩
        intro ann' hok
        obtain ⟨w1, w2, w3, w4, w5⟩ := q3 ann' hok
        refine ⟨w1, w2, ?_, fun a h => w4 a (by simp [h]), ?_⟩
        · rw [w3]; simp [AMap.keys]
        · intro o' ho'
          rcases List.mem_cons.1 ho' with h' | h'
          · subst h'
            refine ⟨port, w4 _ (by simp), ?_, ?_⟩
            · intro hnone; rw [hold] at hnone; simp at hnone
            · intro l h2 hl hsl
              rw [hold] at hl; injection hl with hl
              rw [← hl, hs] at hsl
              simp at hsl
              exact hsl.2
          · obtain ⟨p', hp', hs'⟩ := w5 o' h'
            refine ⟨p', hp', ?_⟩
            simpa [Served, hlsrest o' h'] using hs'
      · simp only [hk]
        have hx : Inv P cfg (plus noEx c si) (release (loadOrCreate s c si o).2 (P c) h port) := i1.release hsock
        cases hop : openTCPPort P (release (loadOrCreate s c si o).2 (P c) h port) c si
            (loadOrCreate s c si o).1 (env si) with
        | mk po s2 =>
          cases po with
          | none =>
            simp only
            have := openTCPPort_none hop
            subst this
            refine ⟨?_, by simp, by simp⟩
            show (deleteMany P _ c succ).dead = _
            rw [deleteMany_dead]; exact d1
          | some p =>
            simp only
            obtain ⟨hp, rfl, hfix⟩ := openTCPPort_some hop
            refine finish _ p _ hx d1 hp rfl ?_ ⟨?_, ?_⟩
            · intro a h'
              refine openFor_release hsock (ho1 _ _ _ (ha' a h').1) ?_
              intro hh
              simp at hh
              exact (ha' a h').2.1 hh
            · intro hnone; simp only at hnone; rw [hold] at hnone; simp at hnone
            · intro l h2 hl hsl
              simp only at hl hsl
              rw [hold] at hl; injection hl with hl
              rw [← hl, hs] at hsl
              simp at hsl
              simp [hsl.2] at hk

theorem process_inv {s : St} {c : Nat} {opts : List (Nat × Opt)} {env : Nat → Env}
    (hi : Inv P cfg noEx s) (hd : s.dead c = false) (hn : (AMap.keys opts).Nodup) :
    (processTCP P s c opts env).2.dead = s.dead ∧
    ((∀ si, (processTCP P s c opts env).1 ≠ .failed si true) → Inv P cfg noEx (processTCP P s c opts env).2) ∧
    (∀ ann, (processTCP P s c opts env).1 = .ok ann →
      ann.map Prod.fst = AMap.keys opts ∧
      (∀ a ∈ ann, OpenFor (processTCP P s c opts env).2 a.2 c a.1) ∧
      (∀ o ∈ opts, ∃ p, (o.1, p) ∈ ann ∧ Served (s.ls c) o p)) := by
  obtain ⟨q1, q2, q3⟩ := loop_inv (env := env) opts s [] [] hi hd hn (by simp)
  unfold processTCP
  cases hr : loop P c env s opts [] [] with
  | mk r s' =>
    rw [hr] at q1 q2 q3
    simp only at q1 q2 q3
    cases r with
    | failed si had =>
      simp only
      refine ⟨q1, ?_, by simp⟩
      intro hne
      cases had with
      | true => exact absurd rfl (hne si)
      | false => exact q2 si rfl
    | ok ann =>
      simp only
      obtain ⟨w1, w2, w3, w4, w5⟩ := q3 ann rfl
      have hd' : s'.dead c = false := by rw [q1]; exact hd
      refine ⟨by rw [deleteMany_dead]; exact q1, fun _ => w1.deleteMany _ hd' (fun _ _ x => x), ?_⟩
      intro ann' he
      injection he with he
      subst he
      refine ⟨by simpa using w3, ?_, w5⟩
      intro a h
      refine w1.openFor_deleteMany _ hd' (w2 a h) ?_
      have : a.1 ∈ AMap.keys opts := by
        have h3 : a.1 ∈ ann.map Prod.fst := List.mem_map_of_mem h
        rw [w3] at h3
        simpa using h3
      simp [oldIndexes, this]

/-- The requests of a history are Go maps: no duplicate service index. -/
def EvOK : Ev → Prop
  | .process _ opts _ => (AMap.keys opts).Nodup
  | .leave _ => True

theorem run_inv {evs : List Ev} {s : St} (hi : Inv P cfg noEx s) (hok : ∀ e ∈ evs, EvOK e)
    (ht : ¬ ReopenFails (run P s evs).1) : Inv P cfg noEx (run P s evs).2 := by
  induction evs generalizing s with
  | nil => exact hi
  | cons e r ih =>
    simp only [run]
    have hne : ∀ si, (step P s e).1 ≠ some (.failed si true) := by
      intro si h
      exact ht ⟨si, by simp [run, h]⟩
    refine ih ?_ (fun e h => hok e (by simp [h])) ?_
    · cases e with
      | process c opts env =>
        simp only [step] at hne ⊢
        cases hd : s.dead c with
        | true => simp [hd]; exact hi
        | false =>
          simp only [hd] at hne ⊢
          have := hok (.process c opts env) (by simp)
          exact (process_inv hi hd this).2.1 (fun si h => hne si (by simp [h]))
      | leave c =>
        simp only [step]
        cases hd : s.dead c with
        | true => simp [hd]; exact hi
        | false => exact hi.lastTunnelLeft hd
    · rintro ⟨si, h⟩
      exact ht ⟨si, by simp [run, h]⟩

/-! ## C27 -/

/-- **C27 (part).**  For every configuration with pairwise disjoint pools and every history in which no
reload fails to reopen the port of a service it already served: no port is ever open twice, every open
port comes from the pool of its client, and at any time the free ports of a pool and the ports open for
its clients partition the configured set.  Missing: histories with a failed reopen, for which the claim is
false (`stale_listener_double_open`), and the interleaving inside a hand-over (`Race.lean`). -/
theorem port_accounting_partial (cfg : Nat → List Nat) (P : Nat → Nat) (evs : List Ev)
    (hdis : ∀ q q' p, p ∈ cfg q → p ∈ cfg q' → q = q')
    (hok : ∀ e ∈ evs, EvOK e) (ht : ¬ ReopenFails (run P (start cfg) evs).1) :
    NoDoubleOpen (run P (start cfg) evs).2 ∧
    Partition P cfg (run P (start cfg) evs).2 ∧
    (∀ p c si, OpenFor (run P (start cfg) evs).2 p c si → p ∈ cfg (P c)) := by
  have hi : Inv P cfg noEx (run P (start cfg) evs).2 := run_inv start_inv hok ht
  have allowed : ∀ h p c si, AMap.get (run P (start cfg) evs).2.socks h = some (p, c, si) → p ∈ cfg (P c) :=
    fun h p c si hh => (hi.part _ _).2 (Or.inr ⟨h, c, si, hh, rfl⟩)
  refine ⟨?_, ?_, fun p c si ⟨h, hh⟩ => allowed h p c si hh⟩
  · intro h h' p c si c' si' a b
    exact hi.uniq _ _ _ _ _ _ _ a b (hdis _ _ _ (allowed _ _ _ _ a) (allowed _ _ _ _ b))
  · intro q p
    refine ⟨?_, ?_⟩
    · rw [hi.part]
      constructor
      · rintro (h | ⟨h, c, si, h1, h2⟩)
        · exact Or.inl h
        · exact Or.inr ⟨c, si, ⟨h, h1⟩, h2⟩
      · rintro (h | ⟨c, si, ⟨h, h1⟩, h2⟩)
        · exact Or.inl h
        · exact Or.inr ⟨h, c, si, h1, h2⟩
    · rintro ⟨hp, c, si, ⟨h, h1⟩, h2⟩
      subst h2
      exact hi.excl _ _ _ _ h1 hp

/-- When a client's last tunnel leaves, none of its ports stays open, and the ports it had are free
again. -/
theorem ports_returned_partial (cfg : Nat → List Nat) (P : Nat → Nat) (evs : List Ev) (c : Nat)
    (hok : ∀ e ∈ evs, EvOK e) (ht : ¬ ReopenFails (run P (start cfg) evs).1)
    (hd : (run P (start cfg) evs).2.dead c = false) :
    (∀ p si, ¬ OpenFor (step P (run P (start cfg) evs).2 (.leave c)).2 p c si) ∧
    (∀ p si, OpenFor (run P (start cfg) evs).2 p c si →
      p ∈ (step P (run P (start cfg) evs).2 (.leave c)).2.pool (P c)) := by
  have hi : Inv P cfg noEx (run P (start cfg) evs).2 := run_inv start_inv hok ht
  simp only [step, hd, Bool.false_eq_true, if_false]
  have hi' := hi.lastTunnelLeft (c := c) hd
  have hno : ∀ p si, ¬ OpenFor (lastTunnelLeft P (run P (start cfg) evs).2 c) p c si := by
    rintro p si ⟨h, hh⟩
    have := (hi'.sock _ _ _ _ hh).1
    simp [lastTunnelLeft] at this
  refine ⟨hno, ?_⟩
  rintro p si ⟨h, hh⟩
  have h1 : p ∈ cfg (P c) := (hi.part _ _).2 (Or.inr ⟨h, c, si, hh, rfl⟩)
  rcases (hi'.part _ _).1 h1 with h2 | ⟨h2, c2, si2, h3, h4⟩
  · exact h2
  · exfalso
    by_cases e : c2 = c
    · subst e; exact hno _ _ ⟨h2, h3⟩
    · -- the other client had the port open already before
      have sub : ∀ (L : List (Nat × Lis)) (s : St) (h : Nat) (v : Nat × Nat × Nat),
          AMap.get (closeEntries P c s L).socks h = some v → AMap.get s.socks h = some v := by
        intro L
        induction L with
        | nil => intro s h v hv; exact hv
        | cons x r ih =>
          intro s h v hv
          obtain ⟨a, l⟩ := x
          simp only [closeEntries] at hv
          split at hv
          · exact ih _ _ _ hv
          · rename_i h' p' _
            have := ih _ _ _ hv
            simp only [release, closeSock, giveBack, setPool] at this
            rw [AMap.get_del] at this
            split at this
            · simp at this
            · exact this
      have h5 := sub _ _ _ _ (show AMap.get (closeEntries P c _ _).socks h2 = some (p, c2, si2) from h3)
      have h6 := hi.uniq _ _ _ _ _ _ _ hh h5 h4.symm
      subst h6
      rw [hh] at h5
      injection h5 with h5
      simp at h5
      exact e h5.1.symm

/-! Unconditionally, a client only ever gets ports of its own pool. -/

structure WInv (P : Nat → Nat) (cfg : Nat → List Nat) (s : St) : Prop where
  pool : ∀ q p, p ∈ s.pool q → p ∈ cfg q
  ent : ∀ c si l h p, (si, l) ∈ s.ls c → l.sock = some (h, p) → p ∈ cfg (P c)
  sock : ∀ h p c si, (h, (p, c, si)) ∈ s.socks → p ∈ cfg (P c)

theorem mem_set {κ ν : Type} [DecidableEq κ] {m : AMap κ ν} {k : κ} {v : ν} {e : κ × ν}
    (h : e ∈ AMap.set m k v) : e ∈ m ∨ e = (k, v) := by
  induction m with
  | nil => simp [AMap.set] at h; exact Or.inr h
  | cons a r ih =>
    simp only [AMap.set] at h
    split at h
    · rcases List.mem_cons.1 h with h | h
      · exact Or.inr h
      · exact Or.inl (by simp [h])
    · rcases List.mem_cons.1 h with h | h
      · exact Or.inl (by simp [h])
      · rcases ih h with h | h
        · exact Or.inl (by simp [h])
        · exact Or.inr h

theorem mem_del {κ ν : Type} [DecidableEq κ] {m : AMap κ ν} {k : κ} {e : κ × ν}
    (h : e ∈ AMap.del m k) : e ∈ m := (List.mem_filter.1 h).1

theorem WInv.release {s c h p} (hi : WInv P cfg s) (hp : p ∈ cfg (P c)) :
    WInv P cfg (release s (P c) h p) := by
  refine ⟨?_, hi.ent, ?_⟩
  · intro q p' hp'
    rcases (mem_giveBack s (P c) p q p').1 hp' with h | ⟨rfl, rfl⟩
    · exact hi.pool _ _ h
    · exact hp
  · intro h' p' c' si' hh
    exact hi.sock _ _ _ _ (mem_del hh)

theorem WInv.setLs {s c m} (hi : WInv P cfg s) (hm : ∀ si l h p, (si, l) ∈ m → l.sock = some (h, p) → p ∈ cfg (P c)) :
    WInv P cfg (setLs s c m) := by
  refine ⟨hi.pool, ?_, hi.sock⟩
  intro c' si l h p hl hs
  simp only [Ports.setLs] at hl
  split at hl
  · rename_i e; subst e; exact hm _ _ _ _ hl hs
  · exact hi.ent _ _ _ _ _ hl hs

theorem WInv.deleteLis {s c} (si : Nat) (hi : WInv P cfg s) : WInv P cfg (deleteLis P s c si) := by
  unfold Ports.deleteLis
  split
  · exact hi
  · rename_i l hl
    have h1 : WInv P cfg (Ports.setLs s c (AMap.del (s.ls c) si)) :=
      hi.setLs (fun si' l' h p hm hs => hi.ent _ _ _ _ _ (mem_del hm) hs)
    simp only
    split
    · exact h1
    · rename_i h p hs
      exact h1.release (hi.ent _ _ _ _ _ (AMap.mem_of_get _ hl) hs)

theorem WInv.deleteMany {s c} (sis : List Nat) (hi : WInv P cfg s) : WInv P cfg (deleteMany P s c sis) := by
  induction sis generalizing s with
  | nil => exact hi
  | cons si r ih => simp only [Ports.deleteMany]; exact ih (hi.deleteLis si)

theorem WInv.openTCPPort {s c si l env} (hi : WInv P cfg s) : WInv P cfg (openTCPPort P s c si l env).2 := by
  unfold Ports.openTCPPort
  split
  · rename_i p hc
    have hp := hi.pool _ _ (choosePort_mem hc)
    refine ⟨?_, ?_, ?_⟩
    · intro q p' h
      simp only [doOpen] at h
      split at h
      · exact hi.pool _ _ (List.mem_filter.1 h).1
      · exact hi.pool _ _ h
    · intro c' si' l' h p' hm hs
      simp only [doOpen] at hm
      split at hm
      · rename_i e; subst e
        rcases mem_set hm with hm | hm
        · exact hi.ent _ _ _ _ _ hm hs
        · simp at hm
          rw [hm.2] at hs
          simp at hs
          rw [← hs.2]; exact hp
      · exact hi.ent _ _ _ _ _ hm hs
    · intro h p' c' si' hm
      simp only [doOpen] at hm
      rcases mem_set hm with hm | hm
      · exact hi.sock _ _ _ _ hm
      · simp at hm
        rw [hm.2.1, hm.2.2.1]; exact hp
  · exact hi

theorem WInv.loadOrCreate {s c} (si : Nat) (o : Opt) (hi : WInv P cfg s) :
    WInv P cfg (loadOrCreate s c si o).2 ∧
    (∀ h p, (Ports.loadOrCreate s c si o).1.sock = some (h, p) → p ∈ cfg (P c)) := by
  unfold Ports.loadOrCreate
  split
  · rename_i l hl
    exact ⟨hi, fun h p hs => hi.ent _ _ _ _ _ (AMap.mem_of_get _ hl) hs⟩
  · simp only
    refine ⟨hi.setLs ?_, by simp⟩
    intro si' l h p hm hs
    rcases mem_set hm with hm | hm
    · exact hi.ent _ _ _ _ _ hm hs
    · simp at hm; rw [hm.2] at hs; simp at hs

theorem WInv.loop {c : Nat} {env : Nat → Env} (opts : List (Nat × Opt)) (s : St) (succ : List Nat)
    (ann : List (Nat × Nat)) (hi : WInv P cfg s) : WInv P cfg (loop P c env s opts succ ann).2 := by
  induction opts generalizing s succ ann with
  | nil => exact hi
  | cons o r ih =>
    obtain ⟨si, o⟩ := o
    obtain ⟨i1, hs1⟩ := hi.loadOrCreate (c := c) si o
    simp only [Ports.loop]
    cases hs : (Ports.loadOrCreate s c si o).1.sock with
    | none =>
      simp only
      have i2 := i1.openTCPPort (c := c) (si := si) (l := (Ports.loadOrCreate s c si o).1) (env := env si)
      cases hop : Ports.openTCPPort P (Ports.loadOrCreate s c si o).2 c si (Ports.loadOrCreate s c si o).1 (env si) with
      | mk po s2 =>
        rw [hop] at i2
        cases po with
        | none => simp only; exact i2.deleteMany _
        | some p => simp only; exact ih _ _ _ i2
    | some x =>
      obtain ⟨h, port⟩ := x
      simp only
      split
      · exact ih _ _ _ i1
      · have i2 := (i1.release (h := h) (hs1 h port hs)).openTCPPort (c := c) (si := si)
          (l := (Ports.loadOrCreate s c si o).1) (env := env si)
        cases hop : Ports.openTCPPort P (Ports.release (Ports.loadOrCreate s c si o).2 (P c) h port) c si
            (Ports.loadOrCreate s c si o).1 (env si) with
        | mk po s2 =>
          rw [hop] at i2
          cases po with
          | none => simp only; exact i2.deleteMany _
          | some p => simp only; exact ih _ _ _ i2

theorem WInv.closeEntries {s c} (L : List (Nat × Lis)) (hi : WInv P cfg s)
    (hL : ∀ e ∈ L, ∀ h p, e.2.sock = some (h, p) → p ∈ cfg (P c)) : WInv P cfg (closeEntries P c s L) := by
  induction L generalizing s with
  | nil => exact hi
  | cons e r ih =>
    obtain ⟨si, l⟩ := e
    simp only [Ports.closeEntries]
    split
    · exact ih hi (fun e h => hL e (by simp [h]))
    · rename_i h p hs
      exact ih (hi.release (hL (si, l) (by simp) h p hs)) (fun e h => hL e (by simp [h]))

theorem WInv.step {s} (e : Ev) (hi : WInv P cfg s) : WInv P cfg (step P s e).2 := by
  cases e with
  | process c opts env =>
    simp only [Ports.step]
    split
    · exact hi
    · simp only [processTCP]
      have := hi.loop (c := c) (env := env) opts s [] []
      cases hr : Ports.loop P c env s opts [] [] with
      | mk r s' =>
        rw [hr] at this
        cases r with
        | failed => exact this
        | ok ann => exact this.deleteMany _
  | leave c =>
    simp only [Ports.step]
    split
    · exact hi
    · have := hi.closeEntries (c := c) (s.ls c) (fun e he h p hs => hi.ent _ _ _ _ _ he hs)
      exact ⟨this.pool, this.ent, this.sock⟩

/-- **C27, second claim, for every history** (failed reopens and arbitrary requests included): every port
that is ever open for a client belongs to that client's configured pool. -/
theorem open_ports_are_allowed (cfg : Nat → List Nat) (P : Nat → Nat) (evs : List Ev) :
    ∀ p c si, OpenFor (run P (start cfg) evs).2 p c si → p ∈ cfg (P c) := by
  have key : ∀ s, WInv P cfg s → WInv P cfg (run P s evs).2 := by
    induction evs with
    | nil => intro s h; exact h
    | cons e r ih => intro s h; exact ih _ (h.step e)
  rintro p c si ⟨h, hh⟩
  exact (key (start cfg) ⟨fun _ _ h => h, by simp [start], by simp [start]⟩).sock _ _ _ _ (AMap.mem_of_get _ hh)

/-! Reopening never fails if the operating system grants every bind. -/

/-- A listener opened for a fixed port has that port. -/
def OInv (s : St) : Prop :=
  ∀ c si l h p, (si, l) ∈ s.ls c → l.sock = some (h, p) → l.opt.random = false → p = l.opt.port

theorem OInv.deleteLis {s c} (si : Nat) (hi : OInv s) : OInv (deleteLis P s c si) := by
  intro c' si' l h p hm
  rw [deleteLis_ls] at hm
  split at hm
  · rename_i e; subst e; exact hi _ _ _ _ _ (mem_del hm)
  · exact hi _ _ _ _ _ hm

theorem OInv.deleteMany {s c} (sis : List Nat) (hi : OInv s) : OInv (deleteMany P s c sis) := by
  induction sis generalizing s with
  | nil => exact hi
  | cons si r ih => simp only [Ports.deleteMany]; exact ih (hi.deleteLis si)

theorem OInv.openTCPPort {s c si l env} (hi : OInv s) : OInv (openTCPPort P s c si l env).2 := by
  unfold Ports.openTCPPort
  split
  · rename_i p hc
    intro c' si' l' h p' hm hs hr
    simp only [doOpen] at hm
    split at hm
    · rename_i e; subst e
      rcases mem_set hm with hm | hm
      · exact hi _ _ _ _ _ hm hs hr
      · simp at hm
        obtain ⟨_, rfl⟩ := hm
        simp at hs
        rw [← hs.2]
        exact choosePort_fixed hc hr
    · exact hi _ _ _ _ _ hm hs hr
  · exact hi

theorem OInv.loadOrCreate {s c} (si : Nat) (o : Opt) (hi : OInv s) : OInv (loadOrCreate s c si o).2 := by
  unfold Ports.loadOrCreate
  split
  · exact hi
  · intro c' si' l' h p' hm hs hr
    simp only [Ports.setLs] at hm
    split at hm
    · rename_i e; subst e
      rcases mem_set hm with hm | hm
      · exact hi _ _ _ _ _ hm hs hr
      · simp at hm
        rw [hm.2] at hs
        simp at hs
    · exact hi _ _ _ _ _ hm hs hr

theorem firstBind_iff (bind : Nat → Bool) (p : Nat) : ∀ (ps : List Nat) (k : Nat),
    firstBind bind k ps = some p ↔ ∃ j, k + j < 3 ∧ ps[j]? = some p ∧ bind (k + j + 1) = true ∧ ∀ m < j, bind (k + m + 1) = false := by
  intro ps
  induction ps with
  | nil => intro k; simp [firstBind]
  | cons a r ih =>
    intro k
    simp only [firstBind]
    by_cases hk : 3 ≤ k
    · rw [if_pos hk]
      constructor
      · intro h; cases h
      · rintro ⟨j, h1, _⟩; omega
    · rw [if_neg hk]
      by_cases hb : bind (k + 1) = true
      · rw [if_pos hb]
        constructor
        · intro h
          simp only [Option.some.injEq] at h; subst h
          exact ⟨0, by omega, rfl, hb, by omega⟩
        · rintro ⟨j, h1, h2, h3, h4⟩
          cases j with
          | zero => simpa using h2
          | succ j => have := h4 0 (by omega); rw [Nat.add_zero, hb] at this; cases this
      · rw [if_neg hb, ih]
        have hb' : bind (k + 1) = false := by simpa using hb
        constructor
        · rintro ⟨j, h1, h2, h3, h4⟩
          refine ⟨j + 1, by omega, by simpa using h2, ?_, ?_⟩
          · have : k + (j + 1) + 1 = k + 1 + j + 1 := by omega
            rw [this]; exact h3
          · intro m hm
            cases m with
            | zero => exact hb'
            | succ m =>
              have := h4 m (by omega)
              have e : k + (m + 1) + 1 = k + 1 + m + 1 := by omega
              rw [e]; exact this
        · rintro ⟨j, h1, h2, h3, h4⟩
          cases j with
          | zero => rw [Nat.add_zero, hb'] at h3; cases h3
          | succ j =>
            refine ⟨j, by omega, by simpa using h2, ?_, ?_⟩
            · have : k + 1 + j + 1 = k + (j + 1) + 1 := by omega
              rw [this]; exact h3
            · intro m hm
              have := h4 (m + 1) (by omega)
              have e : k + 1 + m + 1 = k + (m + 1) + 1 := by omega
              rw [e]; exact this

/-- **C28** (choice of the port): a listener gets the port it asks for exactly if that one is free and can be bound;
otherwise, if any port will do, the first of three free ones that can be bound, in the order the pool is gone through
(`bind 0` is the bind of the port asked for, `bind 1`, `bind 2`, `bind 3` those of the others). -/
theorem port_choice (free : List Nat) (opt : Opt) (env : Env) (p : Nat) :
    choosePort free opt env = some p ↔
      (p = opt.port ∧ p ∈ free ∧ env.bind 0 = true) ∨
      ((opt.port ∉ free ∨ env.bind 0 = false) ∧ opt.random = true ∧
        ∃ j, j < 3 ∧ (env.order.filter (fun q => decide (q ∈ free)))[j]? = some p ∧ env.bind (j + 1) = true ∧
          ∀ m < j, env.bind (m + 1) = false) := by
  unfold choosePort
  by_cases hf : free = []
  · subst hf
    have hnil : (env.order.filter (fun q => decide (q ∈ ([] : List Nat)))) = [] := by simp
    rw [hnil]
    simp
  · rw [if_neg (by simpa using hf)]
    by_cases h0 : (decide (opt.port ∈ free) && env.bind 0) = true
    · rw [if_pos h0]
      simp only [Bool.and_eq_true, decide_eq_true_eq] at h0
      constructor
      · intro h; simp only [Option.some.injEq] at h; subst h; exact Or.inl ⟨rfl, h0.1, h0.2⟩
      · rintro (⟨rfl, _, _⟩ | ⟨h, _⟩)
        · rfl
        · rcases h with h | h
          · exact absurd h0.1 h
          · rw [h0.2] at h; cases h
    · rw [if_neg h0]
      simp only [Bool.and_eq_true, decide_eq_true_eq, not_and] at h0
      have hnot : opt.port ∉ free ∨ env.bind 0 = false := by
        by_cases hm : opt.port ∈ free
        · exact Or.inr (by simpa using h0 hm)
        · exact Or.inl hm
      cases hr : opt.random with
      | false =>
        simp only [Bool.not_false, if_true]
        constructor
        · intro h; cases h
        · rintro (⟨rfl, h1, h2⟩ | ⟨_, h, _⟩)
          · exact absurd h2 (h0 h1)
          · cases h
      | true =>
        simp only [Bool.not_true, Bool.false_eq_true, if_false]
        rw [firstBind_iff]
        simp only [Nat.zero_add]
        constructor
        · intro h; exact Or.inr ⟨hnot, trivial, h⟩
        · rintro (⟨rfl, h1, h2⟩ | ⟨_, _, h⟩)
          · exact absurd h2 (h0 h1)
          · exact h

/-- The port asked for is taken and the first other one cannot be bound: the second is used; after three failures none. -/
example : choosePort [5, 6, 7, 8] ⟨9, true⟩ ⟨fun k => k == 2, [5, 6, 7, 8]⟩ = some 6 ∧
    choosePort [5, 6, 7, 8] ⟨9, true⟩ ⟨fun k => k == 4, [5, 6, 7, 8]⟩ = none := by decide

theorem choosePort_granted {free : List Nat} {opt : Opt} {env : Env} {port : Nat}
    (hb : ∀ k, env.bind k = true) (hp : port ∈ free) (ho : port ∈ env.order)
    (hf : opt.random = false → port = opt.port) : ∃ p, choosePort free opt env = some p := by
  unfold choosePort
  have hne : free.isEmpty = false := by
    cases free with
    | nil => simp at hp
    | cons => rfl
  simp only [hne, hb, Bool.and_true]
  by_cases h1 : opt.port ∈ free
  · simp [h1]
  · simp only [h1, decide_false]
    cases hr : opt.random with
    | false => exact absurd ((hf hr) ▸ hp) h1
    | true =>
      simp
      have hm : port ∈ env.order.filter (fun p => decide (p ∈ free)) := by simp [ho, hp]
      cases hL : env.order.filter (fun p => decide (p ∈ free)) with
      | nil => rw [hL] at hm; simp at hm
      | cons a r => exact ⟨a, by simp [firstBind, hb]⟩

theorem loop_granted {c : Nat} {env : Nat → Env} (opts : List (Nat × Opt)) (s : St) (succ : List Nat)
    (ann : List (Nat × Nat)) (hi : WInv P cfg s) (ho : OInv s)
    (hg : ∀ si, (∀ k, (env si).bind k = true) ∧ ∀ p ∈ cfg (P c), p ∈ (env si).order) :
    OInv (loop P c env s opts succ ann).2 ∧ ∀ si, (loop P c env s opts succ ann).1 ≠ .failed si true := by
  induction opts generalizing s succ ann with
  | nil => exact ⟨ho, by simp [Ports.loop]⟩
  | cons o r ih =>
    obtain ⟨si, o⟩ := o
    obtain ⟨i1, hs1⟩ := hi.loadOrCreate (c := c) si o
    have o1 := ho.loadOrCreate (c := c) si o
    have hent : ∀ h p, (Ports.loadOrCreate s c si o).1.sock = some (h, p) →
        (Ports.loadOrCreate s c si o).1.opt.random = false → p = (Ports.loadOrCreate s c si o).1.opt.port := by
      intro h p
      unfold Ports.loadOrCreate
      split
      · rename_i l hl
        exact ho _ _ _ _ _ (AMap.mem_of_get _ hl)
      · simp
    simp only [Ports.loop]
    cases hs : (Ports.loadOrCreate s c si o).1.sock with
    | none =>
      simp only
      have i2 := i1.openTCPPort (c := c) (si := si) (l := (Ports.loadOrCreate s c si o).1) (env := env si)
      have o2 := o1.openTCPPort (P := P) (c := c) (si := si) (l := (Ports.loadOrCreate s c si o).1) (env := env si)
      cases hop : Ports.openTCPPort P (Ports.loadOrCreate s c si o).2 c si (Ports.loadOrCreate s c si o).1 (env si) with
      | mk po s2 =>
        rw [hop] at i2 o2
        cases po with
        | none => simp only; exact ⟨o2.deleteMany _, by simp⟩
        | some p => simp only; exact ih _ _ _ i2 o2
    | some x =>
      obtain ⟨h, port⟩ := x
      simp only
      split
      · exact ih _ _ _ i1 o1
      · have i1' := i1.release (c := c) (h := h) (hs1 h port hs)
        have o1' : OInv (Ports.release (Ports.loadOrCreate s c si o).2 (P c) h port) := o1
        have i2 := i1'.openTCPPort (c := c) (si := si) (l := (Ports.loadOrCreate s c si o).1) (env := env si)
        have o2 := o1'.openTCPPort (P := P) (c := c) (si := si) (l := (Ports.loadOrCreate s c si o).1) (env := env si)
        cases hop : Ports.openTCPPort P (Ports.release (Ports.loadOrCreate s c si o).2 (P c) h port) c si
            (Ports.loadOrCreate s c si o).1 (env si) with
        | mk po s2 =>
          rw [hop] at i2 o2
          cases po with
          | none =>
            exfalso
            obtain ⟨p, hc⟩ := choosePort_granted (free := (Ports.release (Ports.loadOrCreate s c si o).2 (P c) h port).pool (P c))
              (opt := (Ports.loadOrCreate s c si o).1.opt) (env := env si) (port := port) (hg si).1
              ((mem_giveBack _ _ _ _ _).2 (Or.inr ⟨rfl, rfl⟩)) ((hg si).2 _ (hs1 h port hs)) (hent h port hs)
            simp [Ports.openTCPPort, hc] at hop
          | some p => simp only; exact ih _ _ _ i2 o2

/-- The operating system grants every bind, and the iteration of the pool visits every port in it. -/
def OsGrants (P : Nat → Nat) (cfg : Nat → List Nat) : Ev → Prop
  | .process c _ env => ∀ si, (∀ k, (env si).bind k = true) ∧ ∀ p ∈ cfg (P c), p ∈ (env si).order
  | .leave _ => True

/-- If the operating system never refuses a bind, the hypothesis of the partial theorems always holds. -/
theorem no_reopen_failure_if_granted (cfg : Nat → List Nat) (P : Nat → Nat) (evs : List Ev)
    (hg : ∀ e ∈ evs, OsGrants P cfg e) : ¬ ReopenFails (run P (start cfg) evs).1 := by
  have key : ∀ s, WInv P cfg s → OInv s → ¬ ReopenFails (run P s evs).1 := by
    induction evs with
    | nil => rintro s _ _ ⟨si, h⟩; simp [run] at h
    | cons e r ih =>
      rintro s hw ho ⟨si, h⟩
      have hstep : OInv (step P s e).2 ∧ ∀ si, (step P s e).1 ≠ some (.failed si true) := by
        cases e with
        | process c opts env =>
          have hge := hg (.process c opts env) (by simp)
          simp only [step]
          split
          · exact ⟨ho, by simp⟩
          · obtain ⟨a, b⟩ := loop_granted (P := P) (cfg := cfg) (c := c) (env := env) opts s [] [] hw ho hge
            simp only [processTCP]
            cases hr : loop P c env s opts [] [] with
            | mk rr s' =>
              rw [hr] at a b
              cases rr with
              | failed si' had =>
                refine ⟨a, ?_⟩
                intro si'' he
                simp at he
                exact b si'' (by simp [he])
              | ok ann => exact ⟨a.deleteMany _, by simp⟩
        | leave c =>
          simp only [step]
          split
          · exact ⟨ho, by simp⟩
          · refine ⟨?_, by simp⟩
            intro c' si' l h p hm
            simp only [lastTunnelLeft] at hm
            have : ∀ (L : List (Nat × Lis)) (s : St), (closeEntries P c s L).ls = s.ls := by
              intro L
              induction L with
              | nil => intro s; rfl
              | cons e r ih =>
                intro s
                simp only [closeEntries]
                split
                · exact ih _
                · rw [ih]; rfl
            rw [this] at hm
            exact ho _ _ _ _ _ hm
      simp only [run, List.mem_cons] at h
      rcases h with h | h
      · exact hstep.2 si h.symm
      · exact ih (fun e he => hg e (by simp [he])) _ (hw.step e) hstep.1 ⟨si, h⟩
  exact key (start cfg) ⟨fun _ _ h => h, by simp [start], by simp [start]⟩ (by intro c; simp [start])

/-- **C27, the failing case exists.**  Two clients share the pool {80, 81}.  Client 0 opens 80, reloads
with port 81; the server closes 80 and fails to bind it again (it asks for the *old* port); the entry of the
closed listener stays.  Client 1 now opens port 80.  When client 0 leaves, port 80 is handed back although
it is open, and client 2 opens it a second time: two services share one public port. -/
theorem stale_listener_double_open :
    ∃ evs : List Ev, (∀ e ∈ evs, EvOK e) ∧
      let s := (run (fun _ => 0) (start (fun _ => [80, 81])) evs).2
      OpenFor s 80 1 0 ∧ OpenFor s 80 2 0 := by
  refine ⟨[.process 0 [(0, ⟨80, false⟩)] (fun _ => ⟨fun _ => true, []⟩),
    .process 0 [(0, ⟨81, false⟩)] (fun _ => ⟨fun _ => false, []⟩),
    .process 1 [(0, ⟨80, false⟩)] (fun _ => ⟨fun _ => true, []⟩),
    .leave 0,
    .process 2 [(0, ⟨80, false⟩)] (fun _ => ⟨fun _ => true, []⟩)], ?_, ?_⟩
  · intro e he
    simp at he
    rcases he with rfl | rfl | rfl | rfl | rfl <;> simp [EvOK, AMap.keys]
  · exact ⟨⟨1, by decide⟩, ⟨2, by decide⟩⟩

/-! ## C28 -/

/-- **C28 is false.**  A reload that changes the fixed port of service 0 from 80 to 81 — with port 81
free and every bind succeeding — leaves port 80 open and never opens 81. -/
theorem reload_keeps_old_port :
    let grant : Nat → Env := fun _ => ⟨fun _ => true, [80, 81]⟩
    let s := (run (fun _ => 0) (start (fun _ => [80, 81]))
      [.process 0 [(0, ⟨80, false⟩)] grant, .process 0 [(0, ⟨81, false⟩)] grant]).2
    OpenFor s 80 0 0 ∧ ¬ OpenFor s 81 0 0 ∧ 81 ∈ s.pool 0 := by
  refine ⟨⟨1, by decide⟩, ?_, by decide⟩
  rintro ⟨h, hh⟩
  have := AMap.mem_of_get _ hh
  revert this
  generalize hS : (run (fun _ => 0) (start (fun _ => [80, 81]))
      [.process 0 [(0, ⟨80, false⟩)] (fun _ => ⟨fun _ => true, [80, 81]⟩),
       .process 0 [(0, ⟨81, false⟩)] (fun _ => ⟨fun _ => true, [80, 81]⟩)]).2.socks = S
  have : S = [(1, (80, 0, 0))] := by rw [← hS]; decide
  subst this
  simp

/-- The retry after a failed open asks for the old port as well: the first request for 80 fails (the
bind is refused), the second one, for 81, opens 80. -/
theorem retry_opens_old_port :
    let s := (run (fun _ => 0) (start (fun _ => [80, 81]))
      [.process 0 [(0, ⟨80, false⟩)] (fun _ => ⟨fun _ => false, []⟩),
       .process 0 [(0, ⟨81, false⟩)] (fun _ => ⟨fun _ => true, []⟩)]).2
    OpenFor s 80 0 0 := ⟨0, by decide⟩

/-- Requested service indexes of client `c` in a history. -/
def Requested (evs : List Ev) (c si : Nat) : Prop := ∃ opts env, Ev.process c opts env ∈ evs ∧ si ∈ AMap.keys opts

theorem keys_del_sub {κ ν : Type} [DecidableEq κ] {m : AMap κ ν} {k x : κ} (h : x ∈ AMap.keys (AMap.del m k)) :
    x ∈ AMap.keys m := by
  obtain ⟨e, he, rfl⟩ := List.mem_map.1 h
  exact List.mem_map_of_mem (mem_del he)

theorem keys_set_sub {κ ν : Type} [DecidableEq κ] {m : AMap κ ν} {k x : κ} {v : ν} (h : x ∈ AMap.keys (AMap.set m k v)) :
    x ∈ AMap.keys m ∨ x = k := by
  obtain ⟨e, he, rfl⟩ := List.mem_map.1 h
  rcases mem_set he with h | h
  · exact Or.inl (List.mem_map_of_mem h)
  · exact Or.inr (by simp [h])

theorem deleteMany_keys {s : St} {c c' si : Nat} (sis : List Nat)
    (h : si ∈ AMap.keys ((deleteMany P s c sis).ls c')) : si ∈ AMap.keys (s.ls c') := by
  induction sis generalizing s with
  | nil => exact h
  | cons a r ih =>
    simp only [deleteMany] at h
    have := ih h
    rw [deleteLis_ls] at this
    split at this
    · rename_i e; subst e; exact keys_del_sub this
    · exact this

theorem open_keys {s : St} {c c' si si' : Nat} {l : Lis} {env : Env}
    (h : si' ∈ AMap.keys ((openTCPPort P s c si l env).2.ls c')) :
    si' ∈ AMap.keys (s.ls c') ∨ (c' = c ∧ si' = si) := by
  unfold openTCPPort at h
  split at h
  · simp only [doOpen] at h
    split at h
    · rename_i e; subst e
      rcases keys_set_sub h with h | h
      · exact Or.inl h
      · exact Or.inr ⟨rfl, h⟩
    · exact Or.inl h
  · exact Or.inl h

theorem load_keys {s : St} {c c' si si' : Nat} {o : Opt}
    (h : si' ∈ AMap.keys ((loadOrCreate s c si o).2.ls c')) :
    si' ∈ AMap.keys (s.ls c') ∨ (c' = c ∧ si' = si) := by
  unfold loadOrCreate at h
  split at h
  · exact Or.inl h
  · simp only [setLs] at h
    split at h
    · rename_i e; subst e
      rcases keys_set_sub h with h | h
      · exact Or.inl h
      · exact Or.inr ⟨rfl, h⟩
    · exact Or.inl h

theorem loop_keys {c c' si' : Nat} {env : Nat → Env} (opts : List (Nat × Opt)) (s : St) (succ : List Nat)
    (ann : List (Nat × Nat)) (h : si' ∈ AMap.keys ((loop P c env s opts succ ann).2.ls c')) :
    si' ∈ AMap.keys (s.ls c') ∨ (c' = c ∧ si' ∈ AMap.keys opts) := by
  induction opts generalizing s succ ann with
  | nil => exact Or.inl h
  | cons o r ih =>
    obtain ⟨si, o⟩ := o
    simp only [loop] at h
    have fin : ∀ s2 : St, (∀ x, x ∈ AMap.keys (s2.ls c') → x ∈ AMap.keys (s.ls c') ∨ (c' = c ∧ x = si)) →
        (si' ∈ AMap.keys (s2.ls c') ∨ (c' = c ∧ si' ∈ AMap.keys r)) →
        si' ∈ AMap.keys (s.ls c') ∨ (c' = c ∧ si' ∈ AMap.keys ((si, o) :: r)) := by
      intro s2 h1 h2
      rcases h2 with h2 | ⟨h2, h3⟩
      · rcases h1 _ h2 with h | ⟨h, h'⟩
        · exact Or.inl h
        · exact Or.inr ⟨h, by simp [AMap.keys, h']⟩
      · exact Or.inr ⟨h2, by simp only [AMap.keys, List.map_cons, List.mem_cons] at h3 ⊢; exact Or.inr h3⟩
    cases hs : (loadOrCreate s c si o).1.sock with
    | none =>
      simp only [hs] at h
      have ok : ∀ x, x ∈ AMap.keys ((openTCPPort P (loadOrCreate s c si o).2 c si (loadOrCreate s c si o).1 (env si)).2.ls c') →
          x ∈ AMap.keys (s.ls c') ∨ (c' = c ∧ x = si) := by
        intro x hx
        rcases open_keys hx with h | h
        · exact load_keys h
        · exact Or.inr h
      cases hop : openTCPPort P (loadOrCreate s c si o).2 c si (loadOrCreate s c si o).1 (env si) with
      | mk po s2 =>
        rw [hop] at ok
        simp only [hop] at h
        cases po with
        | none => exact fin s2 ok (Or.inl (deleteMany_keys _ h))
        | some p => exact fin s2 ok (ih _ _ _ h)
    | some x =>
      obtain ⟨hh, port⟩ := x
      simp only [hs] at h
      split at h
      · exact fin _ (fun x hx => load_keys hx) (ih _ _ _ h)
      · have ok : ∀ x, x ∈ AMap.keys ((openTCPPort P (release (loadOrCreate s c si o).2 (P c) hh port) c si
            (loadOrCreate s c si o).1 (env si)).2.ls c') →
            x ∈ AMap.keys (s.ls c') ∨ (c' = c ∧ x = si) := by
          intro x hx
          rcases open_keys hx with h | h
          · exact load_keys h
          · exact Or.inr h
        cases hop : openTCPPort P (release (loadOrCreate s c si o).2 (P c) hh port) c si
            (loadOrCreate s c si o).1 (env si) with
        | mk po s2 =>
          rw [hop] at ok
          simp only [hop] at h
          cases po with
          | none => exact fin s2 ok (Or.inl (deleteMany_keys _ h))
          | some p => exact fin s2 ok (ih _ _ _ h)

theorem closeEntries_ls (c : Nat) (L : List (Nat × Lis)) (s : St) : (closeEntries P c s L).ls = s.ls := by
  induction L generalizing s with
  | nil => rfl
  | cons e r ih =>
    simp only [closeEntries]
    split
    · exact ih _
    · rw [ih]; rfl

theorem step_keys {s : St} {e : Ev} {c si : Nat} (h : si ∈ AMap.keys ((step P s e).2.ls c)) :
    si ∈ AMap.keys (s.ls c) ∨ Requested [e] c si := by
  cases e with
  | process c0 opts env =>
    simp only [step] at h
    split at h
    · exact Or.inl h
    · simp only [processTCP] at h
      have key := loop_keys (P := P) (c := c0) (c' := c) (si' := si) (env := env) opts s [] []
      have fin : (si ∈ AMap.keys (s.ls c) ∨ (c = c0 ∧ si ∈ AMap.keys opts)) →
          si ∈ AMap.keys (s.ls c) ∨ Requested [Ev.process c0 opts env] c si := by
        rintro (h | ⟨rfl, h⟩)
        · exact Or.inl h
        · rename_i h'; exact Or.inr ⟨opts, env, by simp, by assumption⟩
      cases hr : loop P c0 env s opts [] [] with
      | mk r s' =>
        rw [hr] at key
        simp only [hr] at h
        cases r with
        | failed => exact fin (key h)
        | ok ann => exact fin (key (deleteMany_keys _ h))
  | leave c0 =>
    simp only [step] at h
    split at h
    · exact Or.inl h
    · simp only [lastTunnelLeft] at h
      rw [closeEntries_ls] at h
      exact Or.inl h

theorem run_keys {s : St} {evs : List Ev} {c si : Nat} (h : si ∈ AMap.keys ((run P s evs).2.ls c)) :
    si ∈ AMap.keys (s.ls c) ∨ Requested evs c si := by
  induction evs generalizing s with
  | nil => exact Or.inl h
  | cons e r ih =>
    simp only [run] at h
    rcases ih h with h | ⟨o, env, h1, h2⟩
    · rcases step_keys h with h | ⟨o, env, h1, h2⟩
      · exact Or.inl h
      · simp at h1
        exact Or.inr ⟨o, env, by simp [h1], h2⟩
    · exact Or.inr ⟨o, env, by simp [h1], h2⟩

/-- **C28 (part).**  After a registration or reload that succeeds, every requested TCP service has an open
port which is the one announced to the client, and
* a service index this client never requested before gets the requested port if it is fixed;
* a service whose open port already is the requested one keeps it.
Missing (and false, `reload_keeps_old_port`): the new port of an index that had another port before. -/
theorem requested_ports_opened_partial (cfg : Nat → List Nat) (P : Nat → Nat) (evs : List Ev) (c : Nat)
    (opts : List (Nat × Opt)) (env : Nat → Env) (ann : List (Nat × Nat))
    (hok : ∀ e ∈ evs, EvOK e) (hn : (AMap.keys opts).Nodup)
    (ht : ¬ ReopenFails (run P (start cfg) evs).1)
    (hres : (step P (run P (start cfg) evs).2 (.process c opts env)).1 = some (.ok ann)) :
    ann.map Prod.fst = AMap.keys opts ∧
    ∀ o ∈ opts, ∃ p, (o.1, p) ∈ ann ∧
      OpenFor (step P (run P (start cfg) evs).2 (.process c opts env)).2 p c o.1 ∧
      (¬ Requested evs c o.1 → o.2.random = false → p = o.2.port) ∧
      (OpenFor (run P (start cfg) evs).2 o.2.port c o.1 → p = o.2.port) := by
  have hi : Inv P cfg noEx (run P (start cfg) evs).2 := run_inv start_inv hok ht
  simp only [step] at hres ⊢
  cases hd : (run P (start cfg) evs).2.dead c with
  | true => simp [hd] at hres
  | false =>
    simp only [hd] at hres ⊢
    simp at hres
    obtain ⟨_, _, h3⟩ := process_inv (env := env) hi hd hn
    obtain ⟨w1, w2, w3⟩ := h3 ann hres
    refine ⟨w1, ?_⟩
    intro o ho
    obtain ⟨p, hp, hs1, hs2⟩ := w3 o ho
    refine ⟨p, hp, w2 _ hp, ?_, ?_⟩
    · intro hnr hr
      refine hs1 ?_ hr
      rw [AMap.get_eq_none_iff]
      intro hk
      rcases run_keys hk with h | h
      · simp [start, AMap.keys] at h
      · exact hnr h
    · rintro ⟨h, hh⟩
      obtain ⟨_, _, l, hl, hsk⟩ := hi.sock _ _ _ _ hh
      exact hs2 l h hl hsk

/-- Non-vacuity: two clients, a reload, a departure; all hypotheses of the theorems hold and ports are
open. -/
example :
    let grant : Nat → Env := fun _ => ⟨fun _ => true, [80, 81, 82, 90]⟩
    let r := run (fun c => if c = 2 then 1 else 0) (start (fun q => if q = 0 then [80, 81, 82] else [90]))
      [.process 0 [(0, ⟨80, false⟩), (1, ⟨0, true⟩)] grant, .process 1 [(0, ⟨82, false⟩)] grant,
       .process 2 [(0, ⟨90, false⟩)] grant, .process 0 [(1, ⟨81, false⟩)] grant, .leave 1]
    r.1 = [some (.ok [(0, 80), (1, 81)]), some (.ok [(0, 82)]), some (.ok [(0, 90)]), some (.ok [(1, 81)]), none] ∧
    r.2.socks = [(1, (81, 0, 1)), (3, (90, 2, 0))] ∧ r.2.pool 0 = [82, 80] := by decide

end Verif.Ports
