import Verif.Registry.LiveAuth
set_option linter.unusedSimpArgs false
set_option linter.unusedVariables false
/-! # C25, C26: connection limit, tunnel selection -/
namespace Verif.Registry
open Verif

/-! ## Where a client's limit comes from -/

structure Conf (R : String → Nat → Prop) (s : Srv) : Prop where
  cli : ∀ c cl, s.clis.get c = some cl → R cl.id cl.conns
  pend : ∀ t tt id u o r, s.tuns.get t = some tt → tt.phase = .authed id u o r → R id u.conns

variable {R : String → Nat → Prop}

theorem conf_setCli {s : Srv} {c : Nat} {x cl : Cli} (h : ∀ c cl, s.clis.get c = some cl → R cl.id cl.conns)
    (hc : s.clis.get c = some cl) (hi : x.id = cl.id) (hn : x.conns = cl.conns) :
    ∀ c' cl', (setCli s c x).clis.get c' = some cl' → R cl'.id cl'.conns := by
  intro c' cl' hg
  rw [setCli_clis] at hg
  split at hg
  · simp at hg; subst hg; rw [hi, hn]; exact h c cl hc
  · exact h c' cl' hg

theorem removeTunnel_conf (s : Srv) (c t : Nat) (h : ∀ c cl, s.clis.get c = some cl → R cl.id cl.conns) :
    ∀ c' cl', (removeTunnel s c t).clis.get c' = some cl' → R cl'.id cl'.conns := by
  unfold removeTunnel
  split
  · exact h
  · rename_i cl hc
    split
    · exact h
    · split
      · simp only
        have key : ∀ c' cl', (removeClient (setCli s c { cl with tunnels := none }) cl.id).clis.get c' = some cl' → R cl'.id cl'.conns := by
          rw [(removeClient_frame _ _).2.1]
          exact conf_setCli h hc rfl rfl
        split
        · split
          · exact key
          · exact key
        · exact conf_setCli h hc rfl rfl
      · exact h

theorem Conf.finish {s : Srv} (h : Conf R s) (t : Nat) : Conf R (finish s t) := by
  have key : ∀ (cs : List Nat) (s : Srv), (∀ c cl, s.clis.get c = some cl → R cl.id cl.conns) →
      ∀ c cl, (cs.foldl (fun s c => removeTunnel s c t) s).clis.get c = some cl → R cl.id cl.conns := by
    intro cs
    induction cs with
    | nil => exact fun s h => h
    | cons c cs ih => intro s h; exact ih _ (removeTunnel_conf s c t h)
  unfold Registry.finish
  split
  · exact h
  · simp only
    obtain ⟨_, b⟩ := foldRemove_sub t (by assumption : Tun).clis s
    split
    · refine ⟨key _ s h.cli, ?_⟩
      intro t' tt id u o r hg hp
      rw [setTun_tuns] at hg
      split at hg
      · simp at hg; subst hg; simp at hp
      · rw [b] at hg; exact h.pend t' tt id u o r hg hp
    · refine ⟨key _ s h.cli, ?_⟩
      intro t' tt id u o r hg hp
      rw [b] at hg; exact h.pend t' tt id u o r hg hp

theorem dropOld_conf (c : Nat) (o : Options) (ts : List Nat) (s : Srv) (h : ∀ c cl, s.clis.get c = some cl → R cl.id cl.conns) :
    ∀ c' cl', (dropOld s c o ts).clis.get c' = some cl' → R cl'.id cl'.conns := by
  induction ts generalizing s with
  | nil => exact h
  | cons t ts ih =>
    simp only [dropOld]
    split
    · rename_i cl tt hc ht
      refine ih _ ?_
      exact conf_setCli (x := { cl with tunnels := cl.tunnels.map (fun l => l.erase t), black := lruAdd cl.black tt.cs }) h hc rfl rfl
    · exact ih s h

theorem addTunnel_conf (s : Srv) (c t : Nat) (r : Bool) (o : Options) (k : Bool)
    (h : ∀ c cl, s.clis.get c = some cl → R cl.id cl.conns) :
    ∀ c' cl', (addTunnel s c t r o k).2.clis.get c' = some cl' → R cl'.id cl'.conns := by
  unfold addTunnel
  split
  · rename_i cl tt hc ht
    split
    · exact h
    · split
      · exact h
      · rename_i l hl
        have h1 := conf_setCli (x := { cl with tunnels := some (insertT l t) }) h hc rfl rfl
        split
        · exact h
        · split
          · exact h1
          · simp only
            split
            · exact h1
            · rename_i reg hreg
              split
              · exact h1
              · have h2 := conf_setCli (s := setTun { setCli s c { cl with tunnels := some (insertT l t) } with
                    reg := prune c o.ids tt.ids reg } t { tt with ids := o.ids, cs := o.cs })
                  (x := { cl with tunnels := some (insertT l t), last := o.cs }) (c := c) (cl := { cl with tunnels := some (insertT l t) }) h1
                  (by show (setCli s c _).clis.get c = _; rw [setCli_clis]; simp) rfl rfl
                split
                · exact h2
                · exact dropOld_conf c o _ _ h2
  · exact h

theorem joinLoop_conf (t : Nat) (id : String) (u : User) (r : Bool) (o : Options) (k : Bool) (n c : Nat) (s : Srv)
    (hu : R id u.conns) (h : ∀ c cl, s.clis.get c = some cl → R cl.id cl.conns) :
    ∀ c' cl', (joinLoop t id u r o k n c s).2.2.clis.get c' = some cl' → R cl'.id cl'.conns := by
  induction n generalizing c s with
  | zero => exact h
  | succ n ih =>
    simp only [joinLoop]
    have h1 : ∀ c cl, (getOrCreate s id u).2.clis.get c = some cl → R cl.id cl.conns := by
      unfold getOrCreate
      split
      · exact h
      · intro c cl hg
        simp only [AMap.get_set] at hg
        split at hg
        · simp at hg; subst hg; exact hu
        · exact h c cl hg
    have h2 := addTunnel_conf (getOrCreate s id u).2 (getOrCreate s id u).1 t r o k h1
    split
    · rename_i s' hs'; rw [hs'] at h2; exact ih _ _ h2
    · rename_i r' s' _ hs'; rw [hs'] at h2; exact h2

theorem Conf.step {s : Srv} (hw : WF s) (h : Conf R s) (e : Ev)
    (ha : ∀ id sec ans u, (auth s id sec ans).1 = some u → R id u.conns) : Conf R (step s e) := by
  have hset : ∀ (s : Srv) (t : Nat) (x : Tun), Conf R s → (∀ id u o r, x.phase = .authed id u o r → R id u.conns) → Conf R (setTun s t x) := by
    intro s t x hs hx
    refine ⟨hs.cli, ?_⟩
    intro t' tt id u o r a b
    rw [setTun_tuns] at a
    split at a
    · simp at a; subst a; exact hx id u o r b
    · exact hs.pend t' tt id u o r a b
  cases e with
  | accept t =>
    simp only [Registry.step]; split
    · exact hset s t _ h (by simp)
    · exact h
  | auth t i sec o ok =>
    simp only [Registry.step]
    split
    · split
      · have hcert : Conf R (auth s i sec ok).2 := by
          unfold auth; split <;> exact ⟨h.cli, h.pend⟩
        split
        · rename_i u s' hh
          have := ha i sec ok u (by rw [hh])
          rw [hh] at hcert
          refine hset _ _ _ hcert ?_
          intro id u' o' r' hp
          simp at hp
          obtain ⟨rfl, rfl, _⟩ := hp
          exact this
        · rename_i hh; rw [hh] at hcert; exact hcert.finish t
      · exact h
    · exact h
  | badOptions t =>
    simp only [Registry.step]
    split
    · split
      · exact h.finish t
      · exact h
    · exact h
  | join t k =>
    simp only [Registry.step]
    split
    · rename_i tt htt
      split
      · rename_i i u o r hp
        have hme := h.pend t tt i u o r htt hp
        have a1 := joinLoop_conf t i u r o k 5 0 s hme h.cli
        obtain ⟨_, a2⟩ := joinLoop_sub t i u r o k 5 0 s hw
        have hc : Conf R (joinLoop t i u r o k 5 0 s).2.2 := by
          refine ⟨a1, ?_⟩
          intro t' x id u' o' r' a b
          obtain ⟨y, hy, hyp⟩ := a2 t' x a
          exact h.pend t' y id u' o' r' hy (by rw [hyp]; exact b)
        split
        · split
          · exact hset _ _ _ hc (by simp)
          · exact (hset _ _ _ hc (by simp)).finish t
        · exact hc
      · exact h
    · exact h
  | close t =>
    simp only [Registry.step]
    split
    · split
      · exact h.finish t
      · exact h
    · exact h
  | expire c =>
    simp only [Registry.step]; split
    · rename_i cl hc
      exact ⟨conf_setCli h.cli hc rfl rfl, h.pend⟩
    · exact h
  | checkStart a b =>
    simp only [Registry.step]; split
    · exact ⟨h.cli, h.pend⟩
    · exact h
  | checkEnd => exact ⟨h.cli, h.pend⟩

/-! ## C25 -/

theorem nodup_length_le {l m : List Nat} (h : l.Nodup) (hs : ∀ x ∈ l, x ∈ m) : l.length ≤ m.length := by
  induction l generalizing m with
  | nil => simp
  | cons a l ih =>
    simp only [List.nodup_cons] at h
    have h2 := ih (m := m.erase a) h.2 (by
      intro x hx
      have hne : x ≠ a := fun he => h.1 (he ▸ hx)
      exact (List.mem_erase_of_ne hne).mpr (hs x (List.mem_cons_of_mem _ hx)))
    have ha : a ∈ m := hs a (List.mem_cons_self ..)
    have := List.length_erase_of_mem ha
    have : 0 < m.length := List.length_pos_of_mem ha
    simp only [List.length_cons]; omega

/-- The tunnels live under one id all belong to one client object. -/
theorem live_one_client {s : Srv} (h : WF s) (id : String) (t : Nat) (hl : Live s id t) :
    ∃ c cl l, s.id2cli.get id = some c ∧ s.clis.get c = some cl ∧ cl.id = id ∧ cl.tunnels = some l ∧ t ∈ l ∧ l.length ≤ cl.conns := by
  obtain ⟨c, cl, l, a, b, d, e⟩ := hl
  obtain ⟨x, _, z⟩ := h.w2 c cl l a d
  exact ⟨c, cl, l, by rw [← b]; exact x, a, b, d, e, z⟩

/-- C25: at any time, of any set of tunnels live under one id, there are at most as many as the connection
limit the server granted: for a configured user its own, otherwise the server's default. -/
theorem tunnels_within_limit (m : Mode) (tu : User) (us : AMap String User) (a : Bool) (es : List Ev) (id : String)
    (ts : List Nat) (hn : ts.Nodup) (hl : ∀ t ∈ ts, Live (run (start m tu us a) es) id t) :
    ts.length ≤ tu.conns ∨ ∃ u, us.get id = some u ∧ ts.length ≤ u.conns := by
  let R : String → Nat → Prop := fun id n => n = tu.conns ∨ ∃ u, us.get id = some u ∧ n = u.conns
  have key : ∀ (es : List Ev) (s : Srv), WF s → Conf R s → s.tempUser = tu →
      (∀ id u, s.users.get id = some u → R id u.conns) → Conf R (run s es) := by
    intro es
    induction es with
    | nil => exact fun s _ h _ _ => h
    | cons e es ih =>
      intro s hw h ht hu
      have hauth : ∀ id sec ans u, (auth s id sec ans).1 = some u → R id u.conns := by
        intro id sec ans u h
        unfold auth at h
        split at h
        · simp only [authConfig, usersAuth] at h
          split at h
          · simp at h
          · cases hg : s.users.get id with
            | none =>
              rw [hg] at h; simp only at h
              split at h
              · simp at h; subst h; rw [ht]; exact Or.inl rfl
              · simp at h
            | some x =>
              rw [hg] at h; simp only at h
              split at h
              · rename_i hx; split at hx
                · simp at hx h; subst hx; subst h; exact hu id _ hg
                · simp at hx
              · split at h
                · simp at h; subst h; rw [ht]; exact Or.inl rfl
                · simp at h
        · simp only [authApi] at h
          split at h
          · simp at h
          · split at h
            · simp at h
            · simp at h; subst h; rw [ht]; exact Or.inl rfl
            · split at h
              · simp at h; subst h; rw [ht]; exact Or.inl rfl
              · simp at h
        all_goals
          simp only [authCreate] at h
          split at h
          · simp at h; subst h; rw [ht]; exact Or.inl rfl
          · split at h
            · rename_i x hg
              simp only at h
              split at h
              · simp at h; subst h; exact hu id _ hg
              · simp at h
            · simp at h; subst h; show _ = _ ∨ _; rw [ht]; exact Or.inl rfl
      refine ih _ (hw.step e) (h.step hw e hauth) (by rw [(step_settings s e).2.1]; exact ht) ?_
      rcases check_cases e with hc | ⟨hc1, hc2⟩
      · rw [(step_check s e hc).1]; exact hu
      · refine (step_inv (fun s' => s'.tempUser = tu ∧ ∀ id u, s'.users.get id = some u → R id u.conns) ?_ ?_ ?_ s e hc1 hc2 ⟨ht, hu⟩).2
        · intro x y hxy hx; rw [hxy.2, hxy.1.temp]; exact hx
        · intro x id' hx
          refine ⟨by rw [(removeClient_frame x id').2.2.2.2.2.2.2.1]; exact hx.1, ?_⟩
          have hdel : ∀ id u, (x.users.del id').get id = some u → R id u.conns := by
            intro id u hg; rw [AMap.get_del] at hg; split at hg
            · simp at hg
            · exact hx.2 id u hg
          unfold removeClient
          split
          · exact hx.2
          · exact hx.2
          · exact hdel
          · split
            · split
              · exact hdel
              · exact hx.2
            · exact hx.2
        · intro x id' sec ok hx
          refine ⟨by rw [(auth_same x id' sec ok).1.temp]; exact hx.1, ?_⟩
          have hcr : ∀ id u, (authCreate x id' sec).2.get id = some u → R id u.conns := by
            intro id u hg
            unfold authCreate at hg
            split at hg
            · exact hx.2 id u hg
            · split at hg
              · exact hx.2 id u hg
              · simp only [AMap.get_set] at hg
                split at hg
                · simp at hg; subst hg; show _ = _ ∨ _; rw [hx.1]; exact Or.inl rfl
                · exact hx.2 id u hg
          unfold auth
          split
          · exact hx.2
          · exact hx.2
          · exact hcr
          · exact hcr
  have hw := (WF.start m tu us a).run es
  have hconf := key es (start m tu us a) (WF.start m tu us a)
    ⟨by intro c cl h; simp [start] at h, by intro t tt id u o r h; simp [start] at h⟩ rfl
    (fun id u h => Or.inr ⟨u, h, rfl⟩)
  cases ts with
  | nil => left; simp
  | cons t0 ts =>
    obtain ⟨c, cl, l, h1, h2, h3, h4, h5, h6⟩ := live_one_client hw id t0 (hl t0 (by simp))
    have hlen : (t0 :: ts).length ≤ l.length := by
      refine nodup_length_le hn ?_
      intro x hx
      obtain ⟨c', cl', l', g1, g2, g3, g4, g5, g6⟩ := live_one_client hw id x (hl x hx)
      rw [h1] at g1; simp at g1; subst g1
      rw [h2] at g2; simp at g2; subst g2
      rw [h4] at g4; simp at g4; subst g4
      exact g5
    rcases hconf.cli c cl h2 with hr | ⟨u, hr1, hr2⟩
    · left; omega
    · right; exact ⟨u, by rw [← h3]; exact hr1, by omega⟩

/-- C25, configured users without a health check: the limit is the user's own. -/
theorem configured_tunnels_within_limit (tu : User) (us : AMap String User) (es : List Ev) (id : String)
    (ts : List Nat) (hn : ts.Nodup) (hne : ts ≠ []) (hl : ∀ t ∈ ts, Live (run (start .config tu us false) es) id t) :
    ∃ u, us.get id = some u ∧ ts.length ≤ u.conns := by
  let R : String → Nat → Prop := fun id n => ∃ u, us.get id = some u ∧ n = u.conns
  have key : ∀ (es : List Ev) (s : Srv), WF s → Conf R s → s.mode = .config → s.apiOn = false → s.users = us → Conf R (run s es) := by
    intro es
    induction es with
    | nil => exact fun s _ h _ _ _ => h
    | cons e es ih =>
      intro s hw h hm ho hu
      refine ih _ (hw.step e) (h.step hw e ?_) (by rw [(step_settings s e).1]; exact hm)
        (by rw [(step_settings s e).2.2]; exact ho) (by rw [step_users_fixed s e (Or.inl hm)]; exact hu)
      intro id sec ans u hx
      have hapi : apiAuth s id sec = false := by simp [apiAuth, ho]
      unfold auth at hx
      rw [hm] at hx
      simp only [authConfig, usersAuth, hapi, hu] at hx
      split at hx
      · simp at hx
      · cases hg : us.get id with
        | none => rw [hg] at hx; simp at hx
        | some x =>
          rw [hg] at hx
          by_cases hs : x.secret = sec
          · simp [hs] at hx; subst hx; exact ⟨x, hg, rfl⟩
          · simp [hs] at hx
  have hw := (WF.start .config tu us false).run es
  have hconf := key es (start .config tu us false) (WF.start .config tu us false)
    ⟨by intro c cl h; simp [start] at h, by intro t tt id u o r h; simp [start] at h⟩ rfl rfl rfl
  cases ts with
  | nil => exact absurd rfl hne
  | cons t0 ts =>
    obtain ⟨c, cl, l, h1, h2, h3, h4, h5, h6⟩ := live_one_client hw id t0 (hl t0 (by simp))
    have hlen : (t0 :: ts).length ≤ l.length := by
      refine nodup_length_le hn ?_
      intro x hx
      obtain ⟨c', cl', l', g1, g2, g3, g4, g5, g6⟩ := live_one_client hw id x (hl x hx)
      rw [h1] at g1; simp at g1; subst g1
      rw [h2] at g2; simp at g2; subst g2
      rw [h4] at g4; simp at g4; subst g4
      exact g5
    obtain ⟨u, hr1, hr2⟩ := hconf.cli c cl h2
    exact ⟨u, by rw [← h3]; exact hr1, by omega⟩

/-- Two tunnels of a client whose limit is two; a third is refused. -/
example :
    let s := run (start .config exUser [("bob", ⟨"pw", false, 2, true⟩)] false)
      [.accept 1, .auth 1 "bob" "pw" exOpts none, .join 1 true, .accept 2, .auth 2 "bob" "pw" exOpts none, .join 2 true,
       .accept 3, .auth 3 "bob" "pw" exOpts none, .join 3 true]
    Live s "bob" 1 ∧ Live s "bob" 2 ∧ ¬ Live s "bob" 3 := by
  refine ⟨⟨0, ⟨"bob", some [1, 2], 2, true, 1, []⟩, [1, 2], by decide +kernel, rfl, rfl, by simp⟩,
    ⟨0, ⟨"bob", some [1, 2], 2, true, 1, []⟩, [1, 2], by decide +kernel, rfl, rfl, by simp⟩, ?_⟩
  rintro ⟨c, cl, l, hc, hid, hl, ht⟩
  have : (run (start .config exUser [("bob", ⟨"pw", false, 2, true⟩)] false)
      [.accept 1, .auth 1 "bob" "pw" exOpts none, .join 1 true, .accept 2, .auth 2 "bob" "pw" exOpts none, .join 2 true,
       .accept 3, .auth 3 "bob" "pw" exOpts none, .join 3 true]).clis = [(0, ⟨"bob", some [1, 2], 2, true, 1, []⟩)] := by
    decide +kernel
  rw [this] at hc
  simp only [AMap.get] at hc
  split at hc
  · simp at hc; subst hc; simp at hl; subst hl; simp at ht
  · simp at hc

/-! ## C26 -/

theorem getTunnel_go (l : List (Nat × Nat)) (best : Option (Nat × Nat)) (h : l ≠ [] ∨ best ≠ none) :
    ∃ t n, getTunnel.go l best = some t ∧ ((t, n) ∈ l ∨ best = some (t, n)) ∧
      (∀ x ∈ l, n ≤ x.2) ∧ (∀ b, best = some b → n ≤ b.2) := by
  induction l generalizing best with
  | nil =>
    cases best with
    | none => simp at h
    | some b => exact ⟨b.1, b.2, rfl, Or.inr rfl, by simp, by intro b' hb; simp at hb; subst hb; exact Nat.le_refl _⟩
  | cons e r ih =>
    obtain ⟨t, n⟩ := e
    simp only [getTunnel.go]
    split
    · rename_i h0
      exact ⟨t, n, rfl, Or.inl (by simp), by intro x _; omega, by intro b _; omega⟩
    · cases best with
      | none =>
        obtain ⟨t', n', h1, h2, h3, h4⟩ := ih (some (t, n)) (Or.inr (by simp))
        refine ⟨t', n', h1, ?_, ?_, by simp⟩
        · rcases h2 with h2 | h2
          · exact Or.inl (List.mem_cons_of_mem _ h2)
          · simp at h2; left; simp [h2]
        · intro x hx
          rcases List.mem_cons.mp hx with rfl | hx
          · exact h4 _ rfl
          · exact h3 x hx
      | some b =>
        obtain ⟨bt, bn⟩ := b
        simp only
        split
        · rename_i hlt
          obtain ⟨t', n', h1, h2, h3, h4⟩ := ih (some (t, n)) (Or.inr (by simp))
          have := h4 _ rfl
          refine ⟨t', n', h1, ?_, ?_, ?_⟩
          · rcases h2 with h2 | h2
            · exact Or.inl (List.mem_cons_of_mem _ h2)
            · simp at h2; left; simp [h2]
          · intro x hx
            rcases List.mem_cons.mp hx with rfl | hx
            · exact this
            · exact h3 x hx
          · intro b hb; simp at hb; subst hb; simp only at this ⊢; omega
        · rename_i hlt
          obtain ⟨t', n', h1, h2, h3, h4⟩ := ih (some (bt, bn)) (Or.inr (by simp))
          have := h4 _ rfl
          refine ⟨t', n', h1, ?_, ?_, ?_⟩
          · rcases h2 with h2 | h2
            · exact Or.inl (List.mem_cons_of_mem _ h2)
            · exact Or.inr h2
          · intro x hx
            rcases List.mem_cons.mp hx with rfl | hx
            · simp only at this ⊢; omega
            · exact h3 x hx
          · intro b hb; simp at hb; subst hb; exact this

/-- C26: whatever order the live tunnels are visited in, if there is one, the tunnel selected is one of them
and none has fewer tasks; without tunnels nothing is selected. -/
theorem least_loaded_tunnel (l : List (Nat × Nat)) :
    (l = [] → getTunnel l = none) ∧
    (l ≠ [] → ∃ t n, getTunnel l = some t ∧ (t, n) ∈ l ∧ ∀ t' n', (t', n') ∈ l → n ≤ n') := by
  refine ⟨fun h => by subst h; rfl, fun h => ?_⟩
  have hgo : getTunnel l = getTunnel.go l none ∨ ∃ t n, l = [(t, n)] ∧ getTunnel l = some t := by
    match l with
    | [] => exact absurd rfl h
    | [(t, n)] => exact Or.inr ⟨t, n, rfl, rfl⟩
    | _ :: _ :: _ => exact Or.inl rfl
  rcases hgo with hgo | ⟨t, n, rfl, hg⟩
  · obtain ⟨t, n, h1, h2, h3, _⟩ := getTunnel_go l none (Or.inl h)
    refine ⟨t, n, by rw [hgo]; exact h1, ?_, fun t' n' hx => h3 _ hx⟩
    rcases h2 with h2 | h2
    · exact h2
    · simp at h2
  · exact ⟨t, n, hg, by simp, by intro t' n' hx; simp at hx; omega⟩

example : getTunnel [(4, 3), (5, 1), (6, 2)] = some 5 := rfl

end Verif.Registry
