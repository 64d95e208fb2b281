import Verif.Registry.AuthProps
set_option linter.unusedSimpArgs false
set_option linter.unusedVariables false
/-! # C22: every live tunnel presented the right secret -/
namespace Verif.Registry
open Verif

/-- Live tunnels and tunnels about to join satisfy `Q`. -/
structure Cert (Q : String → Nat → Prop) (s : Srv) : Prop where
  live : ∀ id t, Live s id t → Q id t
  pend : ∀ t tt id u o r, s.tuns.get t = some tt → tt.phase = .authed id u o r → Q id t

theorem live_setTun (s : Srv) (t : Nat) (x : Tun) (id : String) (t' : Nat) : Live (setTun s t x) id t' ↔ Live s id t' := Iff.rfl

theorem live_setCli {s : Srv} {c : Nat} {x : Cli} {id : String} {t : Nat} (h : Live (setCli s c x) id t) :
    (x.id = id ∧ ∃ l, x.tunnels = some l ∧ t ∈ l) ∨ Live s id t := by
  obtain ⟨c', cl, l, a, b, d, e⟩ := h
  rw [setCli_clis] at a
  split at a
  · simp at a; subst a; exact Or.inl ⟨b, l, d, e⟩
  · exact Or.inr ⟨c', cl, l, a, b, d, e⟩

theorem cert_of {Q : String → Nat → Prop} {s s' : Srv} (h : Cert Q s) (hl : ∀ id t, Live s' id t → Live s id t)
    (ht : ∀ t tt id u o r, s'.tuns.get t = some tt → tt.phase = .authed id u o r →
      ∃ tt u o r, s.tuns.get t = some tt ∧ tt.phase = .authed id u o r) : Cert Q s' :=
  ⟨fun id t x => h.live id t (hl id t x), fun t tt id u o r a b => by
    obtain ⟨tt', u', o', r', a', b'⟩ := ht t tt id u o r a b
    exact h.pend t tt' id u' o' r' a' b'⟩

theorem removeTunnel_sub (s : Srv) (c t : Nat) :
    (∀ id t', Live (removeTunnel s c t) id t' → Live s id t') ∧ (removeTunnel s c t).tuns = s.tuns := by
  unfold removeTunnel
  split
  · exact ⟨fun _ _ h => h, rfl⟩
  · rename_i cl hc
    split
    · exact ⟨fun _ _ h => h, rfl⟩
    · rename_i l hl
      split
      · simp only
        obtain ⟨_, e2, _, _, e5, _⟩ := removeClient_frame (setCli s c { cl with tunnels := none }) cl.id
        have key : ∀ id t', Live (removeClient (setCli s c { cl with tunnels := none }) cl.id) id t' → Live s id t' := by
          intro id t' h
          have h' : Live (setCli s c { cl with tunnels := none }) id t' := by
            obtain ⟨c', x, l', a, b⟩ := h
            exact ⟨c', x, l', by rw [← e2]; exact a, b⟩
          rcases live_setCli h' with ⟨_, l', hl', _⟩ | h'
          · simp at hl'
          · exact h'
        split
        · split
          · exact ⟨key, e5⟩
          · exact ⟨key, e5⟩
        · refine ⟨?_, rfl⟩
          intro id t' h
          rcases live_setCli h with ⟨hid, l', hl', ht'⟩ | h'
          · simp at hl'; subst hl'
            exact ⟨c, cl, l, hc, hid, hl, List.mem_of_mem_erase ht'⟩
          · exact h'
      · exact ⟨fun _ _ h => h, rfl⟩

theorem foldRemove_sub (t : Nat) (cs : List Nat) (s : Srv) :
    (∀ id t', Live (cs.foldl (fun s c => removeTunnel s c t) s) id t' → Live s id t') ∧
    (cs.foldl (fun s c => removeTunnel s c t) s).tuns = s.tuns := by
  induction cs generalizing s with
  | nil => exact ⟨fun _ _ h => h, rfl⟩
  | cons c cs ih =>
    simp only [List.foldl_cons]
    obtain ⟨a, b⟩ := removeTunnel_sub s c t
    obtain ⟨a', b'⟩ := ih (removeTunnel s c t)
    exact ⟨fun id t' h => a id t' (a' id t' h), b'.trans b⟩

theorem Cert.finish {Q : String → Nat → Prop} {s : Srv} (h : Cert Q s) (t : Nat) : Cert Q (finish s t) := by
  unfold Registry.finish
  split
  · exact h
  · simp only
    obtain ⟨a, b⟩ := foldRemove_sub t (by assumption : Tun).clis s
    split
    · refine cert_of h a ?_
      intro t' tt id u o r hg hp
      rw [setTun_tuns] at hg
      split at hg
      · simp at hg; subst hg; simp at hp
      · rw [b] at hg; exact ⟨tt, u, o, r, hg, hp⟩
    · refine cert_of h a ?_
      intro t' tt id u o r hg hp
      rw [b] at hg; exact ⟨tt, u, o, r, hg, hp⟩

theorem dropOld_sub (c : Nat) (o : Options) (ts : List Nat) (s : Srv) :
    (∀ id t', Live (dropOld s c o ts) id t' → Live s id t') ∧ (dropOld s c o ts).tuns = s.tuns := by
  induction ts generalizing s with
  | nil => exact ⟨fun _ _ h => h, rfl⟩
  | cons t ts ih =>
    simp only [dropOld]
    split
    · rename_i cl tt hc ht
      refine ⟨fun id t' h => ?_, (ih _).2⟩
      have h' := (ih _).1 id t' h
      have h'' : Live (setCli s c { cl with tunnels := cl.tunnels.map (fun l => l.erase t), black := lruAdd cl.black tt.cs }) id t' := h'
      rcases live_setCli h'' with ⟨hid, l', hl', ht'⟩ | h3
      · simp at hl'
        obtain ⟨l0, hl0, hl0'⟩ := hl'
        subst hl0'
        exact ⟨c, cl, l0, hc, hid, hl0, List.mem_of_mem_erase ht'⟩
      · exact h3
    · exact ih s

/-- What `addTunnel` adds: at most the tunnel, to that client; phases stay. -/
theorem addTunnel_sub (s : Srv) (c t : Nat) (r : Bool) (o : Options) (k : Bool) :
    (∀ id t', Live (addTunnel s c t r o k).2 id t' → Live s id t' ∨ (t' = t ∧ ∃ cl, s.clis.get c = some cl ∧ cl.id = id)) ∧
    (∀ t' tt', (addTunnel s c t r o k).2.tuns.get t' = some tt' → ∃ tt, s.tuns.get t' = some tt ∧ tt.phase = tt'.phase) := by
  have base : (∀ id t', Live s id t' → Live s id t' ∨ (t' = t ∧ ∃ cl, s.clis.get c = some cl ∧ cl.id = id)) ∧
    (∀ t' tt', s.tuns.get t' = some tt' → ∃ tt, s.tuns.get t' = some tt ∧ tt.phase = tt'.phase) :=
    ⟨fun _ _ h => Or.inl h, fun t' tt' h => ⟨tt', h, rfl⟩⟩
  unfold addTunnel
  split
  · rename_i cl tt hc ht
    split
    · exact base
    · split
      · exact base
      · rename_i l hl
        have hins : ∀ id t', Live (setCli s c { cl with tunnels := some (insertT l t) }) id t' →
            Live s id t' ∨ (t' = t ∧ ∃ cl, s.clis.get c = some cl ∧ cl.id = id) := by
          intro id t' h
          rcases live_setCli h with ⟨hid, l', hl', ht'⟩ | h'
          · simp at hl'; subst hl'
            rcases (mem_insertT l t t').mp ht' with h2 | h2
            · exact Or.inl ⟨c, cl, l, hc, hid, hl, h2⟩
            · exact Or.inr ⟨h2, cl, hc, hid⟩
          · exact Or.inl h'
        have htun : ∀ t' tt', (s.tuns.set t { tt with ids := o.ids, cs := o.cs }).get t' = some tt' →
            ∃ tt, s.tuns.get t' = some tt ∧ tt.phase = tt'.phase := by
          intro t' tt' h
          rw [AMap.get_set] at h
          split at h
          · rename_i he; subst he; simp at h; subst h; exact ⟨tt, ht, rfl⟩
          · exact ⟨tt', h, rfl⟩
        split
        · exact base
        · split
          · exact ⟨hins, htun⟩
          · simp only
            split
            · exact ⟨hins, fun t' tt' h => ⟨tt', h, rfl⟩⟩
            · rename_i reg hreg
              split
              · exact ⟨hins, htun⟩
              · have hlast : ∀ id t', Live (setCli (setTun { setCli s c { cl with tunnels := some (insertT l t) } with
                    reg := prune c o.ids tt.ids reg } t { tt with ids := o.ids, cs := o.cs }) c
                    { cl with tunnels := some (insertT l t), last := o.cs }) id t' →
                    Live s id t' ∨ (t' = t ∧ ∃ cl, s.clis.get c = some cl ∧ cl.id = id) := by
                  intro id t' h
                  rcases live_setCli h with ⟨hid, l', hl', ht'⟩ | h'
                  · simp at hl'; subst hl'
                    rcases (mem_insertT l t t').mp ht' with h2 | h2
                    · exact Or.inl ⟨c, cl, l, hc, hid, hl, h2⟩
                    · exact Or.inr ⟨h2, cl, hc, hid⟩
                  · exact hins id t' h'
                split
                · exact ⟨hlast, htun⟩
                · refine ⟨fun id t' h => hlast id t' ((dropOld_sub _ _ _ _).1 id t' h), fun t' tt' h => ?_⟩
                  rw [(dropOld_sub _ _ _ _).2] at h
                  exact htun t' tt' h
  · exact base

theorem getOrCreate_sub {s : Srv} (hw : WF s) (id : String) (u : User) :
    (∀ id' t', Live (getOrCreate s id u).2 id' t' → Live s id' t') ∧ (getOrCreate s id u).2.tuns = s.tuns ∧
    (∃ cl, (getOrCreate s id u).2.clis.get (getOrCreate s id u).1 = some cl ∧ cl.id = id) := by
  unfold getOrCreate
  split
  · rename_i c hc
    obtain ⟨cl, l, a, b, _⟩ := hw.w1 id c hc
    exact ⟨fun _ _ h => h, rfl, cl, a, b⟩
  · refine ⟨?_, rfl, ⟨⟨id, some [], u.conns, u.hasPM, 0, []⟩, by simp, rfl⟩⟩
    rintro id' t' ⟨c, cl, l, a, b, d, e⟩
    simp only [AMap.get_set] at a
    split at a
    · simp at a; subst a; simp at d; subst d; simp at e
    · exact ⟨c, cl, l, a, b, d, e⟩

theorem joinLoop_sub (t : Nat) (id : String) (u : User) (r : Bool) (o : Options) (k : Bool) (n c : Nat) (s : Srv) (hw : WF s) :
    (∀ id' t', Live (joinLoop t id u r o k n c s).2.2 id' t' → Live s id' t' ∨ (t' = t ∧ id' = id)) ∧
    (∀ t' tt', (joinLoop t id u r o k n c s).2.2.tuns.get t' = some tt' → ∃ tt, s.tuns.get t' = some tt ∧ tt.phase = tt'.phase) := by
  induction n generalizing c s with
  | zero => exact ⟨fun _ _ h => Or.inl h, fun t' tt' h => ⟨tt', h, rfl⟩⟩
  | succ n ih =>
    simp only [joinLoop]
    obtain ⟨a1, a2, cl, a3, a4⟩ := getOrCreate_sub hw id u
    have hw1 := hw.getOrCreate id u
    obtain ⟨b1, b2⟩ := addTunnel_sub (getOrCreate s id u).2 (getOrCreate s id u).1 t r o k
    have hw2 := hw1.addTunnel (getOrCreate s id u).1 t r o k
    have c1 : ∀ id' t', Live (addTunnel (getOrCreate s id u).2 (getOrCreate s id u).1 t r o k).2 id' t' →
        Live s id' t' ∨ (t' = t ∧ id' = id) := by
      intro id' t' h
      rcases b1 id' t' h with h | ⟨h1, cl', h2, h3⟩
      · exact Or.inl (a1 id' t' h)
      · rw [a3] at h2; simp at h2; subst h2; exact Or.inr ⟨h1, by rw [← h3]; exact a4⟩
    have c2 : ∀ t' tt', (addTunnel (getOrCreate s id u).2 (getOrCreate s id u).1 t r o k).2.tuns.get t' = some tt' →
        ∃ tt, s.tuns.get t' = some tt ∧ tt.phase = tt'.phase := by
      intro t' tt' h
      obtain ⟨tt, x, y⟩ := b2 t' tt' h
      rw [a2] at x
      exact ⟨tt, x, y⟩
    split
    · rename_i s' hs'
      rw [hs'] at c1 c2 hw2
      obtain ⟨d1, d2⟩ := ih (getOrCreate s id u).1 s' hw2
      refine ⟨?_, ?_⟩
      · intro id' t' h
        rcases d1 id' t' h with h | h
        · exact c1 id' t' h
        · exact Or.inr h
      · intro t' tt' h
        obtain ⟨tt, x, y⟩ := d2 t' tt' h
        obtain ⟨tt2, x2, y2⟩ := c2 t' tt x
        exact ⟨tt2, x2, y2.trans y⟩
    · rename_i r' s' _ hs'
      rw [hs'] at c1 c2
      exact ⟨c1, c2⟩

theorem Cert.step {Q Q' : String → Nat → Prop} (hQ : ∀ id t, Q id t → Q' id t) {s : Srv} (hw : WF s) (h : Cert Q s)
    (e : Ev) (hnew : ∀ t id sec o ans, e = .auth t id sec o ans → Accepts s id sec ans → Q' id t) : Cert Q' (step s e) := by
  have h' : Cert Q' s := ⟨fun id t x => hQ _ _ (h.live id t x), fun t tt id u o r a b => hQ _ _ (h.pend t tt id u o r a b)⟩
  have hset : ∀ (s : Srv) (t : Nat) (x : Tun), Cert Q' s → (∀ id u o r, x.phase = .authed id u o r → Q' id t) → Cert Q' (setTun s t x) := by
    intro s t x hs hx
    refine ⟨hs.live, ?_⟩
    intro t' tt id u o r a b
    rw [setTun_tuns] at a
    split at a
    · rename_i he; subst he; simp at a; subst a; exact hx id u o r b
    · exact hs.pend t' tt id u o r a b
  cases e with
  | accept t =>
    simp only [Registry.step]; split
    · exact hset s t _ h' (by simp)
    · exact h'
  | auth t i sec o ok =>
    simp only [Registry.step]
    split
    · rename_i tt htt
      split
      · have hcert : Cert Q' (auth s i sec ok).2 := by
          refine cert_of h' ?_ ?_
          · intro id t' hl
            unfold auth at hl; split at hl <;> exact hl
          · intro t' x id u o' r a b
            unfold auth at a; split at a <;> exact ⟨x, u, o', r, a, b⟩
        split
        · rename_i u s' hh
          rw [hh] at hcert
          refine hset _ _ _ hcert ?_
          intro id u' o' r' hp
          simp at hp
          obtain ⟨rfl, _⟩ := hp
          exact hnew t i sec o ok rfl (by unfold Accepts; rw [hh]; rfl)
        · rename_i hh; rw [hh] at hcert; exact hcert.finish t
      · exact h'
    · exact h'
  | badOptions t =>
    simp only [Registry.step]
    split
    · split
      · exact h'.finish t
      · exact h'
    · exact h'
  | join t k =>
    simp only [Registry.step]
    split
    · rename_i tt htt
      split
      · rename_i i u o r hp
        obtain ⟨a1, a2⟩ := joinLoop_sub t i u r o k 5 0 s hw
        have hme : Q' i t := h'.pend t tt i u o r htt hp
        have hc : Cert Q' (joinLoop t i u r o k 5 0 s).2.2 := by
          refine ⟨?_, ?_⟩
          · intro id t' hl
            rcases a1 id t' hl with hl | ⟨rfl, rfl⟩
            · exact h'.live id t' hl
            · exact hme
          · intro t' x id u' o' r' a b
            obtain ⟨y, hy, hyp⟩ := a2 t' x a
            exact h'.pend t' y id u' o' r' hy (by rw [hyp]; exact b)
        split
        · split
          · exact hset _ _ _ hc (by simp)
          · exact (hset _ _ _ hc (by simp)).finish t
        · exact hc
      · exact h'
    · exact h'
  | close t =>
    simp only [Registry.step]
    split
    · split
      · exact h'.finish t
      · exact h'
    · exact h'
  | expire c =>
    simp only [Registry.step]; split
    · rename_i cl hc
      refine cert_of h' ?_ (fun t tt id u o r a b => ⟨tt, u, o, r, a, b⟩)
      intro id t' hl
      rcases live_setCli hl with ⟨hid, l', hl', ht'⟩ | h2
      · exact ⟨c, cl, l', hc, hid, hl', ht'⟩
      · exact h2
    · exact h'
  | checkStart a b =>
    simp only [Registry.step]; split
    · exact ⟨h'.live, h'.pend⟩
    · exact h'
  | checkEnd => exact ⟨h'.live, h'.pend⟩

theorem Cert.run (P : Srv → Prop) (hP : ∀ s e, P s → P (Registry.step s e)) {s : Srv} (hs : P s) (hw : WF s)
    (Q0 : String → Nat → Prop) (h : Cert Q0 s) (es : List Ev) :
    Cert (fun id t => Q0 id t ∨ ∃ pre sec o ans post, es = pre ++ .auth t id sec o ans :: post ∧
      Accepts (Registry.run s pre) id sec ans) (Registry.run s es) := by
  induction es generalizing s Q0 with
  | nil => exact ⟨fun id t x => Or.inl (h.live id t x), fun t tt id u o r a b => Or.inl (h.pend t tt id u o r a b)⟩
  | cons e es ih =>
    have h1 := h.step (Q' := fun id t => Q0 id t ∨ ∃ sec o ans, e = .auth t id sec o ans ∧ Accepts s id sec ans)
      (fun _ _ => Or.inl) hw e (fun t id sec o ans he ha => Or.inr ⟨sec, o, ans, he, ha⟩)
    have h2 := ih (hP s e hs) (hw.step e) _ h1
    have key : ∀ id t, ((Q0 id t ∨ ∃ sec o ans, e = .auth t id sec o ans ∧ Accepts s id sec ans) ∨
        ∃ pre sec o ans post, es = pre ++ .auth t id sec o ans :: post ∧ Accepts (Registry.run (Registry.step s e) pre) id sec ans) →
        (Q0 id t ∨ ∃ pre sec o ans post, e :: es = pre ++ .auth t id sec o ans :: post ∧ Accepts (Registry.run s pre) id sec ans) := by
      intro id t hh
      rcases hh with (hh | ⟨sec, o, ans, he, ha⟩) | ⟨pre, sec, o, ans, post, he, ha⟩
      · exact Or.inl hh
      · exact Or.inr ⟨[], sec, o, ans, es, by rw [he]; rfl, ha⟩
      · exact Or.inr ⟨e :: pre, sec, o, ans, post, by rw [he]; rfl, ha⟩
    exact ⟨fun id t x => key id t (h2.live id t x), fun t tt id u o r a b => key id t (h2.pend t tt id u o r a b)⟩

/-- C22: in every mode, whoever is live under an id presented credentials that the server accepted at that
time. -/
theorem live_was_accepted (m : Mode) (tu : User) (us : AMap String User) (a : Bool) (es : List Ev) (id : String) (t : Nat)
    (h : Live (run (start m tu us a) es) id t) :
    ∃ pre sec o ans post, es = pre ++ .auth t id sec o ans :: post ∧ Accepts (run (start m tu us a) pre) id sec ans := by
  have h0 : Cert (fun _ _ => False) (start m tu us a) := by
    refine ⟨?_, ?_⟩
    · rintro id t ⟨c, cl, l, hc, _⟩; simp [start] at hc
    · intro t tt id u o r hg; simp [start] at hg
  have := (Cert.run (fun _ => True) (fun _ _ _ => trivial) trivial (WF.start m tu us a) _ h0 es).live id t h
  rcases this with h | h
  · exact h.elim
  · exact h

/-- C22, configured users: every live tunnel presented the configured secret of its id, or the credentials of
the health check then in progress. -/
theorem live_tunnel_had_the_secret (tu : User) (us : AMap String User) (a : Bool) (es : List Ev) (id : String) (t : Nat)
    (h : Live (run (start .config tu us a) es) id t) :
    ∃ pre sec o ans post, es = pre ++ .auth t id sec o ans :: post ∧
      ((∃ u, us.get id = some u ∧ u.secret = sec) ∨ checkOf pre = some (id, sec)) := by
  obtain ⟨pre, sec, o, ans, post, he, ha⟩ := live_was_accepted .config tu us a es id t h
  refine ⟨pre, sec, o, ans, post, he, ?_⟩
  rw [config_mode_accepts_iff] at ha
  rcases ha.2.2 with hx | hx
  · exact Or.inl hx
  · exact Or.inr hx.2

/-- A configured user with a live tunnel. -/
example : Live (run (start .config exUser [("bob", ⟨"pw", false, 2, true⟩)] false)
    [.accept 7, .auth 7 "bob" "pw" exOpts none, .join 7 true]) "bob" 7 :=
  ⟨0, ⟨"bob", some [7], 2, true, 1, []⟩, [7], by decide +kernel, rfl, rfl, by simp⟩

end Verif.Registry
