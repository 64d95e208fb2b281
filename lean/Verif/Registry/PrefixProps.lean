import Verif.Registry.PrefixStep
set_option linter.unusedSimpArgs false
set_option linter.unusedVariables false
/-! # C24: theorems -/
namespace Verif.Registry
open Verif

variable {cfg : Nat → Ids}

theorem PI.start (m tu us a) : PI cfg (start m tu us a) := by
  refine ⟨⟨?_, ?_, ?_, ?_, ?_, ?_⟩, fun _ => [], ⟨?_, ?_, ?_⟩, ?_⟩ <;> simp [Registry.start, AMap.keys]

theorem PI.getOrCreate {s : Srv} (hw : WF s) (h : PI cfg s) (h0 : cfg 0 = []) (id : String) (u : User) : PI cfg (getOrCreate s id u).2 := by
  unfold Registry.getOrCreate
  split
  · exact h
  · obtain ⟨own, e1, e2⟩ := h.ex
    have hnew : s.clis.get s.nextCli = none := by
      cases hg : s.clis.get s.nextCli with
      | none => rfl
      | some cl => have := hw.w3 _ _ hg; omega
    have hcl : ∀ c', (s.clis.set s.nextCli ⟨id, some [], u.conns, u.hasPM, 0, []⟩).get c' =
        if s.nextCli = c' then some ⟨id, some [], u.conns, u.hasPM, 0, []⟩ else s.clis.get c' := fun c' => AMap.get_set _ _ _ _
    refine ⟨⟨h.base.ids, ?_, ?_, h.base.fresh, h.base.pend, ?_⟩, fun c => if c = s.nextCli then [] else own c, ⟨?_, ?_, ?_⟩, ?_⟩
    · intro c cl hg hl
      simp only [hcl] at hg
      split at hg
      · simp at hg; subst hg; rfl
      · exact h.base.emp c cl hg hl
    · intro c cl l t tt hg hl ht htt
      simp only [hcl] at hg
      split at hg
      · simp at hg; subst hg; simp at hl; subst hl; simp at ht
      · exact h.base.mem c cl l t tt hg hl ht htt
    · intro t c cl l c' cl' l' a1 a2 a3 b1 b2 b3
      simp only [hcl] at a1 b1
      split at a1
      · simp at a1; subst a1; simp at a2; subst a2; simp at a3
      · split at b1
        · simp at b1; subst b1; simp at b2; subst b2; simp at b3
        · exact h.base.one t c cl l c' cl' l' a1 a2 a3 b1 b2 b3
    · intro c
      by_cases he : c = s.nextCli
      · simp [he, AMap.keys]
      · simp only [he, if_false]; exact e1.nd c
    · intro c cl l hg hl
      simp only [hcl] at hg
      by_cases he : c = s.nextCli
      · subst he
        simp only [if_true]
        intro p b i
        constructor
        · intro hx
          exact absurd hx (e1.dead s.nextCli (by intro cl' l' hx'; rw [hnew] at hx'; simp at hx') (p, b) i)
        · intro hx; simp at hx
      · rw [if_neg (Ne.symm he)] at hg
        simp only [he, if_false]
        exact e1.live c cl l hg hl
    · intro c hd k i
      refine e1.dead c ?_ k i
      intro cl l hg hl
      by_cases he : c = s.nextCli
      · subst he; rw [hnew] at hg; simp at hg
      · exact hd cl l (by simp only [hcl]; rw [if_neg (Ne.symm he)]; exact hg) hl
    · intro c cl l hg hl
      simp only [hcl] at hg
      by_cases he : c = s.nextCli
      · subst he; simp at hg; subst hg; simp [h0]
      · rw [if_neg (Ne.symm he)] at hg
        simp only [he, if_false]
        exact e2 c cl l hg hl

theorem joinPre_of {s : Srv} (hw : WF s) (h : PI cfg s) (h0 : cfg 0 = []) {t : Nat} {k : Bool} (ht : Tame cfg s (.join t k)) {tt : Tun}
    {id : String} {u : User} {o : Options} {r : Bool} (hg : s.tuns.get t = some tt) (hp : tt.phase = .authed id u o r) :
    ∃ cl l, JoinPre (getOrCreate s id u).2 (getOrCreate s id u).1 t r o k cl l tt := by
  obtain ⟨hlv, hrest⟩ := ht
  obtain ⟨hr, hst⟩ := hrest tt id u o r hg hp
  have hnr : r = false → tt.cs = 0 ∧ tt.clis = [] := by
    rintro rfl
    exact h.base.fresh t tt hg (Or.inr ⟨id, u, o, hp⟩)
  unfold getOrCreate
  split
  · rename_i c hc
    obtain ⟨cl, l, a, b, d⟩ := hw.w1 id c hc
    refine ⟨cl, l, a, d, hg, ?_, hnr, hst c cl l hc a d, hlv⟩
    intro hr'
    obtain ⟨c', cl', l', g1, g2, g3, g4⟩ := hr hr'
    have := (hw.w2 c' cl' l' g1 g3).1
    rw [g2, hc] at this; simp at this; subst this
    rw [a] at g1; simp at g1; subst g1
    rw [d] at g3; simp at g3; subst g3
    exact g4
  · rename_i hc
    refine ⟨⟨id, some [], u.conns, u.hasPM, 0, []⟩, [], by simp, rfl, hg, ?_, hnr, ?_, ?_⟩
    · intro hr'
      obtain ⟨c', cl', l', g1, g2, g3, g4⟩ := hr hr'
      have := (hw.w2 c' cl' l' g1 g3).1
      rw [g2, hc] at this; simp at this
    · intro _; exact ⟨by simp, fun _ => Or.inl rfl⟩
    · intro tt' c cl htt hm hcg htun
      simp only [AMap.get_set] at hcg
      split at hcg
      · simp at hcg; subst hcg; simp at htun
      · exact hlv tt' c cl htt hm hcg htun

theorem joinLoop_once {s : Srv} (hw : WF s) (t : Nat) (id : String) (u : User) (r : Bool) (o : Options) (k : Bool) (n c0 : Nat)
    (hne : (addTunnel (getOrCreate s id u).2 (getOrCreate s id u).1 t r o k).1 ≠ .retry) :
    joinLoop t id u r o k (n + 1) c0 s = ((getOrCreate s id u).1, addTunnel (getOrCreate s id u).2 (getOrCreate s id u).1 t r o k) := by
  simp only [joinLoop]

theorem PI.step {s : Srv} (hw : WF s) (h : PI cfg s) (hcfg : ∀ n, (cfg n).keys.Nodup) (h0 : cfg 0 = []) (e : Ev)
    (ht : Tame cfg s e) : PI cfg (step s e) := by
  cases e with
  | accept t =>
    simp only [Registry.step]; split
    · rename_i hn
      obtain ⟨own, e1, e2⟩ := h.ex
      have hset : ∀ t' tt', (Registry.setTun s t ⟨[], 0, .fresh, []⟩).tuns.get t' = some tt' → tt' = ⟨[], 0, .fresh, []⟩ ∨ s.tuns.get t' = some tt' := by
        intro t' tt' hg
        rw [setTun_tuns] at hg
        split at hg
        · simp at hg; exact Or.inl hg.symm
        · exact Or.inr hg
      refine ⟨⟨?_, h.base.emp, ?_, ?_, ?_, h.base.one⟩, own, e1.setTun t _, e2⟩
      · intro t' tt' hg
        rcases hset t' tt' hg with rfl | hg
        · exact h0.symm
        · exact h.base.ids t' tt' hg
      · intro c cl l t' tt' a b d hg
        obtain ⟨x, hx⟩ := hw.w4 c cl l t' a b d
        rw [setTun_tuns] at hg
        split at hg
        · rename_i he; subst he; rw [hn] at hx; simp at hx
        · exact h.base.mem c cl l t' tt' a b d hg
      · intro t' tt' hg hph
        rcases hset t' tt' hg with rfl | hg
        · exact ⟨rfl, rfl⟩
        · exact h.base.fresh t' tt' hg hph
      · intro t' tt' id u o r hg hph
        rcases hset t' tt' hg with rfl | hg
        · simp at hph
        · exact h.base.pend t' tt' id u o r hg hph
    · exact h
  | auth t i sec o ok =>
    simp only [Registry.step]
    obtain ⟨ho1, ho2, hlv⟩ := ht
    split
    · rename_i tt htt
      split
      · rename_i hph
        have hfr : (auth s i sec ok).2.clis = s.clis ∧ (auth s i sec ok).2.tuns = s.tuns ∧ (auth s i sec ok).2.reg = s.reg := by
          unfold auth; split <;> exact ⟨rfl, rfl, rfl⟩
        have hpi : PI cfg (auth s i sec ok).2 := h.frame hfr.1 hfr.2.1 hfr.2.2
        have hw' := hw.auth i sec ok
        split
        · rename_i u s' hh
          rw [hh] at hpi hfr
          refine hpi.setTun t _ tt (by rw [hfr.2.1]; exact htt) (h.base.ids t tt htt) rfl rfl ?_ ?_
          · rintro (hx | ⟨id', u', o', hx⟩)
            · simp at hx
            · simp at hx
              rcases hph with hph | hph
              · exact h.base.fresh t tt htt (Or.inl hph)
              · rw [hph] at hx; simp at hx
          · intro id' u' o' r' hx
            simp at hx
            rw [← hx.2.2.1]
            exact ⟨ho1, ho2⟩
        · rename_i s' hh
          rw [hh] at hpi hfr hw'
          have hlv' : LeaveOK s' t := by
            have := hlv (by unfold Accepts; rw [hh]; simp)
            intro tt' c cl g1 g2 g3 g4
            exact this tt' c cl (by rw [← hfr.2.1]; exact g1) g2 (by rw [← hfr.1]; exact g3) g4
          exact (PF.of hpi hlv').finish hw'
      · exact h
    · exact h
  | badOptions t =>
    simp only [Registry.step]
    split
    · split
      · exact (PF.of h ht).finish hw
      · exact h
    · exact h
  | join t k =>
    simp only [Registry.step]
    split
    · rename_i tt htt
      split
      · rename_i i u o r hp
        obtain ⟨cl, l, hpre⟩ := joinPre_of hw h h0 ht htt hp
        have hpi1 := h.getOrCreate hw h0 i u
        have hw1 := hw.getOrCreate i u
        have hres := addTunnel_pi hw1 hpi1 hcfg h0 hpre (h.base.pend t tt i u o r htt hp).2
        have hne : (addTunnel (Registry.getOrCreate s i u).2 (Registry.getOrCreate s i u).1 t r o k).1 ≠ .retry := by
          rcases hres with hx | hx <;> rw [hx.1] <;> simp
        rw [joinLoop_once hw t i u r o k 4 0 hne]
        simp only
        have hwA := hw1.addTunnel (Registry.getOrCreate s i u).1 t r o k
        generalize addTunnel (Registry.getOrCreate s i u).2 (Registry.getOrCreate s i u).1 t r o k = R at *
        split
        · rename_i x hx
          rcases hres with ⟨h1, h2⟩ | ⟨h1, h2⟩
          · rw [if_pos h1]
            unfold joined at h2
            rw [hx] at h2
            exact h2
          · rw [if_neg (by rw [h1]; simp)]
            unfold joined at h2
            rw [hx] at h2
            exact h2.finish (hwA.setTun t _)
        · rename_i hx
          rcases hres with ⟨h1, h2⟩ | ⟨h1, h2⟩
          · unfold joined at h2
            rw [hx] at h2
            exact h2
          · unfold joined at h2
            rw [hx] at h2
            have := h2.finish hwA
            unfold Registry.finish at this
            rw [hx] at this
            exact this
      · exact h
    · exact h
  | close t =>
    simp only [Registry.step]
    split
    · split
      · exact (PF.of h ht).finish hw
      · exact h
    · exact h
  | expire c =>
    simp only [Registry.step]; split
    · rename_i cl hc
      obtain ⟨own, e1, e2⟩ := h.ex
      have hcl : ∀ c' cl', (Registry.setCli s c { cl with black := cl.black.dropLast }).clis.get c' = some cl' →
          ∃ x, s.clis.get c' = some x ∧ cl'.tunnels = x.tunnels ∧ cl'.last = x.last := by
        intro c' cl' hg
        rw [setCli_clis] at hg
        split at hg
        · rename_i he; subst he; simp at hg; subst hg; exact ⟨cl, hc, rfl, rfl⟩
        · exact ⟨cl', hg, rfl, rfl⟩
      refine ⟨⟨h.base.ids, ?_, ?_, h.base.fresh, h.base.pend, ?_⟩, own, e1.setCli c cl _ hc Iff.rfl, ?_⟩
      · intro c' cl' hg hl
        obtain ⟨x, a, b, d⟩ := hcl c' cl' hg
        rw [d]; exact h.base.emp c' x a (by rw [← b]; exact hl)
      · intro c' cl' l t tt hg hl hm htt
        obtain ⟨x, a, b, d⟩ := hcl c' cl' hg
        exact h.base.mem c' x l t tt a (by rw [← b]; exact hl) hm htt
      · intro t c1 cl1 l1 c2 cl2 l2 a1 a2 a3 b1 b2 b3
        obtain ⟨x, xa, xb, xd⟩ := hcl c1 cl1 a1
        obtain ⟨y, ya, yb, yd⟩ := hcl c2 cl2 b1
        exact h.base.one t c1 x l1 c2 y l2 xa (by rw [← xb]; exact a2) a3 ya (by rw [← yb]; exact b2) b3
      · intro c' cl' l hg hl
        obtain ⟨x, a, b, d⟩ := hcl c' cl' hg
        rw [d]; exact e2 c' x l a (by rw [← b]; exact hl)
    · exact h
  | checkStart a b =>
    simp only [Registry.step]; split
    · exact h.frame rfl rfl rfl
    · exact h
  | checkEnd => exact h.frame rfl rfl rfl

theorem PI.run {s : Srv} (hw : WF s) (h : PI cfg s) (hcfg : ∀ n, (cfg n).keys.Nodup) (h0 : cfg 0 = []) (es : List Ev)
    (ht : TameRun cfg s es) : PI cfg (run s es) := by
  induction es generalizing s with
  | nil => exact h
  | cons e es ih => exact ih (hw.step e) (h.step hw hcfg h0 e ht.1) ht.2

/-- C24 (partial: tame histories, see `Tame`): at any time, a prefix (with its TLS flag) routes to client `c` and
service index `i` exactly if `c` is a connected client whose current configuration registers that prefix, with
that flag, for service `i`. So nothing of a client is left after its last tunnel, a live client keeps all its
prefixes, and two live clients never share one. The excluded histories really fail: `tcp_failure_leaks_prefix`,
`partial_reload_loses_prefix`. -/
theorem registry_exact_partial (cfg : Nat → Ids) (hcfg : ∀ n, (cfg n).keys.Nodup) (h0 : cfg 0 = []) (m : Mode) (tu : User)
    (us : AMap String User) (a : Bool) (es : List Ev) (ht : TameRun cfg (start m tu us a) es) (p : String) (tls : Bool) (c i : Nat) :
    (run (start m tu us a) es).reg.get (p, tls) = some (c, i) ↔
      ∃ cl l, (run (start m tu us a) es).clis.get c = some cl ∧ cl.tunnels = some l ∧ (cfg cl.last).get p = some ⟨i, tls⟩ := by
  obtain ⟨own, e1, e2⟩ := (PI.start (cfg := cfg) m tu us a |>.run (WF.start m tu us a) hcfg h0 es ht).ex
  constructor
  · intro hg
    have hlive : ∃ cl l, (run (start m tu us a) es).clis.get c = some cl ∧ cl.tunnels = some l :=
      Classical.byContradiction (fun hn => by
        refine e1.dead c ?_ (p, tls) i hg
        intro cl l h1 h2; exact hn ⟨cl, l, h1, h2⟩)
    obtain ⟨cl, l, h1, h2⟩ := hlive
    refine ⟨cl, l, h1, h2, ?_⟩
    rw [← e2 c cl l h1 h2]
    exact (e1.live c cl l h1 h2 p tls i).mp hg
  · rintro ⟨cl, l, h1, h2, h3⟩
    rw [← e2 c cl l h1 h2] at h3
    exact (e1.live c cl l h1 h2 p tls i).mpr h3

/-- Every prefix of a client whose last tunnel left is free (partial: tame histories). -/
theorem prefixes_released_partial (cfg : Nat → Ids) (hcfg : ∀ n, (cfg n).keys.Nodup) (h0 : cfg 0 = []) (m : Mode) (tu : User)
    (us : AMap String User) (a : Bool) (es : List Ev) (ht : TameRun cfg (start m tu us a) es) (id : String)
    (hid : ¬ Registered (run (start m tu us a) es) id) (key : String × Bool) (c i : Nat) (cl : Cli)
    (hc : (run (start m tu us a) es).clis.get c = some cl) (he : cl.id = id) :
    (run (start m tu us a) es).reg.get key ≠ some (c, i) := by
  intro hg
  obtain ⟨cl', l, h1, h2, _⟩ := (registry_exact_partial cfg hcfg h0 m tu us a es ht key.1 key.2 c i).mp hg
  rw [hc] at h1; simp at h1; subst h1
  exact not_removed ((WF.start m tu us a).run es) id hid c cl l hc h2 he

/-! ### A tame history: two clients, a reload over two tunnels, a new process, leaving -/

def exCfg : Nat → Ids
  | 1 => [("a", ⟨0, false⟩)]
  | 2 => [("a", ⟨1, false⟩), ("b", ⟨0, true⟩)]
  | 3 => [("c", ⟨0, false⟩)]
  | _ => []

def o1 : Options := ⟨exCfg 1, 1, 0⟩
def o2 : Options := ⟨exCfg 2, 2, 0⟩
def o3 : Options := ⟨exCfg 3, 3, 0⟩

def exRun : List Ev :=
  [.accept 1, .auth 1 "x" "s" o1 none, .join 1 true, .accept 2, .auth 2 "x" "s" o1 none, .join 2 true,
   .accept 9, .auth 9 "y" "s" o3 none, .join 9 true,
   .auth 1 "x" "s" o2 none, .join 1 true, .auth 2 "x" "s" o2 none, .join 2 true,
   .close 1, .close 2]

/-- A check of tameness by computation. -/
def leaveB (s : Srv) (t : Nat) : Bool :=
  match s.tuns.get t with
  | some tt => tt.clis.all (fun c => match s.clis.get c with
    | some cl => cl.tunnels != some [t] || tt.cs == cl.last
    | none => true)
  | none => true

def liveB (s : Srv) (id : String) (t : Nat) : Bool :=
  match s.id2cli.get id with
  | some c => match s.clis.get c with
    | some cl => cl.id == id && (match cl.tunnels with | some l => l.contains t | none => false)
    | none => false
  | none => false

def tameB (cfg : Nat → Ids) (s : Srv) : Ev → Bool
  | .auth t _ _ o _ => o.cs != 0 && o.ids == cfg o.cs && leaveB s t
  | .badOptions t => leaveB s t
  | .close t => leaveB s t
  | .join t k => leaveB s t && (match s.tuns.get t with
      | some tt => match tt.phase with
        | .authed id _ o r => (!r || liveB s id t) && (match s.id2cli.get id with
          | some c => match s.clis.get c with
            | some cl => match cl.tunnels with
              | some l => cl.last == o.cs || (l.all (fun t' => match s.tuns.get t' with | some tt' => tt'.cs == cl.last | none => true) &&
                  (!portsFail cl o k || l == [] || l == [t]))
              | none => true
            | none => true
          | none => true)
        | _ => true
      | none => true)
  | _ => true

def tameRunB (cfg : Nat → Ids) : Srv → List Ev → Bool
  | _, [] => true
  | s, e :: es => tameB cfg s e && tameRunB cfg (step s e) es

theorem leaveB_sound (s : Srv) (t : Nat) (h : leaveB s t = true) : LeaveOK s t := by
  intro tt c cl h1 h2 h3 h4
  unfold leaveB at h
  rw [h1] at h
  simp only [List.all_eq_true] at h
  have := h c h2
  rw [h3] at this
  simpa [h4] using this

theorem liveB_sound (s : Srv) (id : String) (t : Nat) (h : liveB s id t = true) : Live s id t := by
  unfold liveB at h
  split at h
  · split at h
    · rename_i c _ _ cl hcl
      simp only [Bool.and_eq_true, beq_iff_eq] at h
      obtain ⟨h1, h2⟩ := h
      split at h2
      · rename_i l hl
        exact ⟨c, cl, l, hcl, h1, hl, by simpa using h2⟩
      · simp at h2
    · simp at h
  · simp at h

theorem tameB_sound (cfg : Nat → Ids) (s : Srv) (e : Ev) (h : tameB cfg s e = true) : Tame cfg s e := by
  cases e with
  | auth t id sec o ans =>
    simp only [tameB, Bool.and_eq_true, bne_iff_ne, beq_iff_eq] at h
    exact ⟨h.1.1, h.1.2, fun _ => leaveB_sound s t h.2⟩
  | badOptions t => exact leaveB_sound s t h
  | close t => exact leaveB_sound s t h
  | join t k =>
    simp only [tameB, Bool.and_eq_true] at h
    refine ⟨leaveB_sound s t h.1, ?_⟩
    intro tt id u o r h1 h2
    obtain ⟨_, h⟩ := h
    rw [h1] at h
    simp only [h2, Bool.and_eq_true] at h
    refine ⟨?_, ?_⟩
    · intro hr; subst hr; simp at h; exact liveB_sound s id t h.1
    · intro c cl l a b d hne
      obtain ⟨_, h⟩ := h
      rw [a] at h
      simp only [b, d] at h
      have hne' : (cl.last == o.cs) = false := by simp [hne]
      rw [hne'] at h
      simp only [Bool.false_or, Bool.and_eq_true, List.all_eq_true] at h
      refine ⟨?_, ?_⟩
      · intro t' ht' tt' htt'
        have := h.1 t' ht'
        rw [htt'] at this
        simpa using this
      · intro hpf
        have := h.2
        rw [hpf] at this
        simpa using this
  | accept t => trivial
  | expire c => trivial
  | checkStart a b => trivial
  | checkEnd => trivial

theorem tameRunB_sound (cfg : Nat → Ids) (s : Srv) (es : List Ev) (h : tameRunB cfg s es = true) : TameRun cfg s es := by
  induction es generalizing s with
  | nil => trivial
  | cons e es ih =>
    simp only [tameRunB, Bool.and_eq_true] at h
    exact ⟨tameB_sound cfg s e h.1, ih _ h.2⟩

theorem exCfg_nodup (n : Nat) : (exCfg n).keys.Nodup := by
  unfold exCfg; split <;> decide

example : TameRun exCfg (start .anyNoUsers exUser [] false) exRun ∧
    (run (start .anyNoUsers exUser [] false) exRun).reg = [(("c", false), (1, 0))] ∧
    (run (start .anyNoUsers exUser [] false) (exRun.take 13)).reg.get ("b", true) = some (0, 0) ∧
    (run (start .anyNoUsers exUser [] false) (exRun.take 13)).reg.get ("a", false) = some (0, 1) :=
  ⟨tameRunB_sound _ _ _ (by decide +kernel), by decide +kernel, by decide +kernel, by decide +kernel⟩

/-! ## Without the restriction -/

/-- C24: a refused registration leaves the registry as it was, unless it was refused for its TCP ports. -/
theorem refused_leaves_registry (s : Srv) (c t : Nat) (r : Bool) (o : Options) (k : Bool) (hn : o.ids.keys.Nodup)
    (hp : ∀ cl, s.clis.get c = some cl → portsFail cl o k = false)
    (h : (addTunnel s c t r o k).1 ≠ .ok) (key : String × Bool) : (addTunnel s c t r o k).2.reg.get key = s.reg.get key := by
  unfold addTunnel at h ⊢
  split
  · rename_i cl tt hc ht
    simp only [hc, ht] at h
    split
    · rfl
    · rename_i hlt
      split
      · rfl
      · rename_i l hl
        split
        · rfl
        · split
          · rfl
          · rename_i hbl hlast
            simp only
            split
            · rename_i reg hreg
              have := (regAdd_get c o.ids s.reg s.reg [] hn (by intro key; simp)).1
              rw [show (setCli s c { cl with tunnels := some (insertT l t) }).reg = s.reg from rfl] at hreg
              rw [hreg] at this; exact this rfl key
            · rename_i reg hreg
              exfalso
              rw [if_neg hlt] at h
              simp only [hl] at h
              rw [if_neg hbl, if_neg hlast] at h
              simp only [hreg, hp cl hc] at h
              cases r <;> simp at h
  · rfl

/-- The exception is real. A second tunnel of `x` brings a new configuration with prefix `b`, whose TCP port
cannot be opened, and is refused; `b` stays registered. After `x` has left entirely `b` still belongs to a dead
client and `y`, whose prefix it is, is refused for good. -/
theorem tcp_failure_leaks_prefix :
    let bad : Options := ⟨[("b", ⟨0, false⟩)], 7, 1⟩
    let oy : Options := ⟨[("b", ⟨0, false⟩)], 8, 0⟩
    let s := run (start .anyNoUsers exUser [] false)
      [.accept 1, .auth 1 "x" "s" o1 none, .join 1 true, .accept 2, .auth 2 "x" "s" bad none, .join 2 true, .close 1]
    ¬ Registered s "x" ∧ s.reg.get ("b", false) = some (0, 0) ∧
    (run s [.accept 3, .auth 3 "y" "s" oy none, .join 3 true]).reg.get ("b", false) = some (0, 0) ∧
    ¬ Live (run s [.accept 3, .auth 3 "y" "s" oy none, .join 3 true]) "y" 3 := by
  refine ⟨by unfold Registered; decide +kernel, by decide +kernel, by decide +kernel, ?_⟩
  rintro ⟨c, cl, l, hc, hid, hl, ht⟩
  have hm := AMap.mem_of_get _ hc
  have hall : ∀ e ∈ (run (run (start .anyNoUsers exUser [] false)
      [.accept 1, .auth 1 "x" "s" o1 none, .join 1 true, .accept 2, .auth 2 "x" "s" ⟨[("b", ⟨0, false⟩)], 7, 1⟩ none, .join 2 true, .close 1])
      [.accept 3, .auth 3 "y" "s" ⟨[("b", ⟨0, false⟩)], 8, 0⟩ none, .join 3 true]).clis, e.2.tunnels = none := by decide +kernel
  rw [hall _ hm] at hl; simp at hl

/-- A reload that reached one of two tunnels (configuration `{a}` to `{c}`), then both leave: the prefix `a`,
meanwhile registered by the live client `y`, is taken from it, and `c` stays with the dead client. -/
theorem partial_reload_loses_prefix :
    let oc : Options := ⟨[("c", ⟨0, false⟩)], 7, 0⟩
    let oy : Options := ⟨[("a", ⟨0, false⟩)], 8, 0⟩
    let es : List Ev := [.accept 1, .auth 1 "x" "s" o1 none, .join 1 true, .accept 2, .auth 2 "x" "s" o1 none, .join 2 true,
       .auth 1 "x" "s" oc none, .join 1 true, .accept 3, .auth 3 "y" "s" oy none, .join 3 true]
    (run (start .anyNoUsers exUser [] false) es).reg.get ("a", false) = some (1, 0) ∧
    (run (start .anyNoUsers exUser [] false) (es ++ [.close 1, .close 2])).reg.get ("a", false) = none ∧
    (run (start .anyNoUsers exUser [] false) (es ++ [.close 1, .close 2])).reg.get ("c", false) = some (0, 0) ∧
    Live (run (start .anyNoUsers exUser [] false) (es ++ [.close 1, .close 2])) "y" 3 ∧
    ¬ Registered (run (start .anyNoUsers exUser [] false) (es ++ [.close 1, .close 2])) "x" := by
  refine ⟨by decide +kernel, by decide +kernel, by decide +kernel,
    ⟨1, ⟨"y", some [3], 3, false, 8, []⟩, [3], by decide +kernel, rfl, rfl, by simp⟩, by unfold Registered; decide +kernel⟩

/-! ### No event hands a prefix from one client to another -/

/-- From `reg0` to `reg`: entries keep their owner or vanish, new ones belong to `c`. -/
def Keep (c : Nat) (reg0 reg : Reg) : Prop :=
  ∀ k c' i, reg.get k = some (c', i) → (∃ j, reg0.get k = some (c', j)) ∨ (reg0.get k = none ∧ c' = c)

theorem Keep.refl (c : Nat) (reg : Reg) : Keep c reg reg := fun k c' i h => Or.inl ⟨i, h⟩

/-- The prefixes `N` all belong to `c`. -/
def Holds (c : Nat) (N : Ids) (reg : Reg) : Prop := ∀ p o, N.get p = some o → ∃ i, reg.get (p, o.tls) = some (c, i)

theorem prune_keep {c : Nat} {N A : Ids} {reg0 reg : Reg} (hA : A.keys.Nodup) (hh : Holds c N reg) (hk : Keep c reg0 reg) :
    Holds c N (prune c N A reg) ∧ Keep c reg0 (prune c N A reg) := by
  constructor
  · intro p o hp
    obtain ⟨i, hi⟩ := hh p o hp
    rw [prune_get c N A reg hA p o.tls]
    cases A.get p with
    | none => exact ⟨i, hi⟩
    | some oo =>
      simp only [hp]
      split
      · split
        · split
          · exact ⟨i, hi⟩
          · exact ⟨o.idx, rfl⟩
        · rename_i h; exact absurd trivial h
      · exact ⟨i, hi⟩
  · rintro ⟨p, b⟩ c' i hg
    rw [prune_get c N A reg hA p b] at hg
    cases hAp : A.get p with
    | none => rw [hAp] at hg; exact hk _ c' i hg
    | some oo =>
      rw [hAp] at hg
      simp only at hg
      split at hg
      · cases hNp : N.get p with
        | none => rw [hNp] at hg; simp at hg
        | some o =>
          rw [hNp] at hg
          simp only at hg
          split at hg
          · rename_i hb
            split at hg
            · exact hk _ c' i hg
            · simp at hg
              obtain ⟨j, hj⟩ := hh p o hNp
              rw [hb] at hj
              rw [← hg.1]
              exact hk _ c j hj
          · simp at hg
      · exact hk _ c' i hg

theorem regAdd_keep {c : Nat} {N : Ids} {reg reg1 : Reg} (hN : N.keys.Nodup) (h : regAdd c N reg [] = (reg1, true)) :
    Holds c N reg1 ∧ Keep c reg reg1 := by
  obtain ⟨_, h2, h3⟩ := regAdd_get c N reg reg [] hN (by intro k; simp)
  rw [h] at h2 h3
  have h2 := h2 rfl
  have h3 := h3 rfl
  simp only at h2
  constructor
  · intro p o hp
    rw [h2, hp]
    simp only [if_true]
    cases hg : reg.get (p, o.tls) with
    | none => exact ⟨o.idx, rfl⟩
    | some x =>
      obtain ⟨c', i⟩ := x
      have := h3 p o c' i hp hg
      subst this
      exact ⟨i, rfl⟩
  · rintro ⟨p, b⟩ c' i hg
    rw [h2] at hg
    cases hNp : N.get p with
    | none => rw [hNp] at hg; exact Or.inl ⟨i, hg⟩
    | some o =>
      rw [hNp] at hg
      simp only at hg
      split at hg
      · cases hr : reg.get (p, b) with
        | none => rw [hr] at hg; simp at hg; exact Or.inr ⟨rfl, hg.1.symm⟩
        | some x => rw [hr] at hg; simp at hg; subst hg; exact Or.inl ⟨i, rfl⟩
      · exact Or.inl ⟨i, hg⟩

theorem dropOld_keep (c : Nat) (o : Options) (ts : List Nat) (s : Srv) (reg0 : Reg) (hT : ∀ t tt, s.tuns.get t = some tt → tt.ids.keys.Nodup)
    (hh : Holds c o.ids s.reg) (hk : Keep c reg0 s.reg) : Keep c reg0 (dropOld s c o ts).reg := by
  induction ts generalizing s with
  | nil => exact hk
  | cons t ts ih =>
    simp only [dropOld]
    split
    · rename_i cl tt hc ht
      obtain ⟨a, b⟩ := prune_keep (hT t tt ht) hh hk
      exact ih _ hT a b
    · exact ih s hT hh hk

theorem addTunnel_keep (s : Srv) (c t : Nat) (r : Bool) (o : Options) (k : Bool) (hT : ∀ t tt, s.tuns.get t = some tt → tt.ids.keys.Nodup)
    (hN : o.ids.keys.Nodup) : Keep c s.reg (addTunnel s c t r o k).2.reg := by
  unfold addTunnel
  split
  · rename_i cl tt hc ht
    split
    · exact Keep.refl c _
    · split
      · exact Keep.refl c _
      · rename_i l hl
        split
        · exact Keep.refl c _
        · split
          · exact Keep.refl c _
          · simp only
            split
            · rename_i reg hreg
              have := (regAdd_get c o.ids s.reg s.reg [] hN (by intro key; simp)).1
              rw [show (setCli s c { cl with tunnels := some (insertT l t) }).reg = s.reg from rfl] at hreg
              rw [hreg] at this
              intro key c' i hg
              rw [this rfl key] at hg
              exact Or.inl ⟨i, hg⟩
            · rename_i reg hreg
              rw [show (setCli s c { cl with tunnels := some (insertT l t) }).reg = s.reg from rfl] at hreg
              obtain ⟨a, b⟩ := regAdd_keep hN hreg
              obtain ⟨a', b'⟩ := prune_keep (hT t tt ht) a b
              split
              · exact b'
              · split
                · exact b'
                · refine dropOld_keep c o _ _ s.reg ?_ a' b'
                  intro t' tt' hg
                  replace hg : (setTun { setCli s c { cl with tunnels := some (insertT l t) } with reg := prune c o.ids tt.ids reg } t
                    { tt with ids := o.ids, cs := o.cs }).tuns.get t' = some tt' := hg
                  rw [setTun_tuns] at hg
                  split at hg
                  · simp at hg; subst hg; exact hN
                  · exact hT t' tt' hg
  · exact Keep.refl c _

/-- Removals only delete. -/
def Shrinks (reg0 reg : Reg) : Prop := ∀ k x, reg.get k = some x → reg0.get k = some x

theorem removeAll_shrinks (A : Ids) (reg : Reg) : Shrinks reg (removeAll A reg) := by
  induction A generalizing reg with
  | nil => exact fun k x h => h
  | cons e r ih =>
    obtain ⟨p, o⟩ := e
    intro k x hg
    simp only [removeAll] at hg
    have := ih _ k x hg
    rw [AMap.get_del] at this
    split at this
    · simp at this
    · exact this

theorem removeTunnel_shrinks (s : Srv) (c t : Nat) : Shrinks s.reg (removeTunnel s c t).reg := by
  unfold removeTunnel
  split
  · exact fun k x h => h
  · rename_i cl hc
    split
    · exact fun k x h => h
    · split
      · simp only
        have he : (removeClient (setCli s c { cl with tunnels := none }) cl.id).reg = s.reg := (removeClient_frame _ _).2.2.2.1
        split
        · split
          · simp only [he]; exact removeAll_shrinks _ _
          · rw [he]; exact fun k x h => h
        · exact fun k x h => h
      · exact fun k x h => h

theorem finish_shrinks (s : Srv) (t : Nat) : Shrinks s.reg (finish s t).reg := by
  have key : ∀ (cs : List Nat) (s : Srv), Shrinks s.reg (cs.foldl (fun s c => removeTunnel s c t) s).reg := by
    intro cs
    induction cs with
    | nil => exact fun s k x h => h
    | cons c cs ih => intro s k x h; exact removeTunnel_shrinks s c t k x (ih _ k x h)
  unfold finish
  split
  · exact fun k x h => h
  · simp only
    split
    · exact key _ s
    · exact key _ s

/-- Prefix lists are maps: no prefix twice. -/
def MapsOK (s : Srv) : Prop :=
  (∀ t tt, s.tuns.get t = some tt → tt.ids.keys.Nodup) ∧
  (∀ t tt id u o r, s.tuns.get t = some tt → tt.phase = .authed id u o r → o.ids.keys.Nodup)

def EvOK : Ev → Prop
  | .auth _ _ _ o _ => o.ids.keys.Nodup
  | _ => True

theorem addTunnel_maps (s : Srv) (c t : Nat) (r : Bool) (o : Options) (k : Bool) (hN : o.ids.keys.Nodup) (h : MapsOK s) :
    MapsOK (addTunnel s c t r o k).2 := by
  obtain ⟨_, hphase⟩ := addTunnel_sub s c t r o k
  have hpend : ∀ t' tt id u o' r', (addTunnel s c t r o k).2.tuns.get t' = some tt → tt.phase = .authed id u o' r' → o'.ids.keys.Nodup := by
    intro t' tt id u o' r' hg hp
    obtain ⟨x, hx, hxp⟩ := hphase t' tt hg
    exact h.2 t' x id u o' r' hx (by rw [hxp]; exact hp)
  refine ⟨?_, hpend⟩
  have hset : ∀ (tt : Tun) t' tt', (s.tuns.set t { tt with ids := o.ids, cs := o.cs }).get t' = some tt' → tt'.ids.keys.Nodup := by
    intro tt t' tt' hg
    rw [AMap.get_set] at hg
    split at hg
    · simp at hg; subst hg; exact hN
    · exact h.1 t' tt' hg
  unfold addTunnel
  split
  · rename_i cl tt hc ht
    split
    · exact h.1
    · split
      · exact h.1
      · split
        · exact h.1
        · split
          · exact hset tt
          · simp only
            split
            · exact h.1
            · split
              · exact hset tt
              · split
                · exact hset tt
                · rw [(dropOld_sub _ _ _ _).2]; exact hset tt
  · exact h.1

theorem finish_maps (s : Srv) (t : Nat) (h : MapsOK s) : MapsOK (finish s t) := by
  unfold finish
  split
  · exact h
  · simp only
    obtain ⟨_, b⟩ := foldRemove_sub t (by assumption : Tun).clis s
    split
    · rename_i tt' hg'
      rw [b] at hg'
      refine ⟨?_, ?_⟩
      · intro t2 tt2 hg
        rw [setTun_tuns] at hg
        split at hg
        · simp at hg; subst hg; exact h.1 t tt' hg'
        · rw [b] at hg; exact h.1 t2 tt2 hg
      · intro t2 tt2 id u o r hg hp
        rw [setTun_tuns] at hg
        split at hg
        · simp at hg; subst hg; simp at hp
        · rw [b] at hg; exact h.2 t2 tt2 id u o r hg hp
    · unfold MapsOK; rw [b]; exact h

theorem getOrCreate_frame (s : Srv) (id : String) (u : User) :
    (getOrCreate s id u).2.tuns = s.tuns ∧ (getOrCreate s id u).2.reg = s.reg := by
  unfold getOrCreate; split <;> exact ⟨rfl, rfl⟩

theorem joinLoop_maps (t : Nat) (id : String) (u : User) (r : Bool) (o : Options) (k : Bool) (n c : Nat) (s : Srv)
    (hw : WF s) (hN : o.ids.keys.Nodup) (h : MapsOK s) :
    MapsOK (joinLoop t id u r o k n c s).2.2 ∧ ∃ c', Keep c' s.reg (joinLoop t id u r o k n c s).2.2.reg := by
  cases n with
  | zero => exact ⟨h, c, Keep.refl c _⟩
  | succ n =>
    obtain ⟨f1, f2⟩ := getOrCreate_frame s id u
    have h1 : MapsOK (getOrCreate s id u).2 := by unfold MapsOK; rw [f1]; exact h
    have h2 := addTunnel_maps (getOrCreate s id u).2 (getOrCreate s id u).1 t r o k hN h1
    have h3 := addTunnel_keep (getOrCreate s id u).2 (getOrCreate s id u).1 t r o k h1.1 hN
    rw [f2] at h3
    have hne : (addTunnel (getOrCreate s id u).2 (getOrCreate s id u).1 t r o k).1 ≠ .retry := by
      have hlive : ∃ cl l, (getOrCreate s id u).2.clis.get (getOrCreate s id u).1 = some cl ∧ cl.tunnels = some l := by
        unfold getOrCreate
        split
        · rename_i c' hc'
          obtain ⟨cl, l, a, _, d⟩ := hw.w1 id c' hc'
          exact ⟨cl, l, a, d⟩
        · exact ⟨⟨id, some [], u.conns, u.hasPM, 0, []⟩, [], by simp, rfl⟩
      obtain ⟨cl, l, hc, hl⟩ := hlive
      generalize (getOrCreate s id u).2 = s1 at *
      generalize (getOrCreate s id u).1 = c1 at *
      unfold addTunnel
      rw [hc]
      split
      · rename_i cl' tt hc' ht
        simp at hc'; subst hc'
        split
        · simp
        · rw [hl]
          simp only
          split
          · simp
          · split
            · simp
            · split
              · simp
              · split
                · simp
                · split <;> simp
      · simp
    rw [joinLoop_once hw t id u r o k n c hne]
    exact ⟨h2, _, h3⟩

theorem step_maps {s : Srv} (hw : WF s) (h : MapsOK s) (e : Ev) (he : EvOK e) :
    MapsOK (step s e) ∧ ∃ c, Keep c s.reg (step s e).reg := by
  have hsh : ∀ reg0 reg reg' c, Keep c reg0 reg → Shrinks reg reg' → Keep c reg0 reg' := by
    intro reg0 reg reg' c a b key c' i hg
    exact a key c' i (b key _ hg)
  have hset : ∀ (s : Srv) (t : Nat) (x : Tun), MapsOK s → x.ids.keys.Nodup → (∀ id u o r, x.phase = .authed id u o r → o.ids.keys.Nodup) → MapsOK (setTun s t x) := by
    intro s t x hs h1 h2
    refine ⟨?_, ?_⟩
    · intro t' tt hg
      rw [setTun_tuns] at hg
      split at hg
      · simp at hg; subst hg; exact h1
      · exact hs.1 t' tt hg
    · intro t' tt id u o r hg hp
      rw [setTun_tuns] at hg
      split at hg
      · simp at hg; subst hg; exact h2 id u o r hp
      · exact hs.2 t' tt id u o r hg hp
  have base : MapsOK s ∧ ∃ c, Keep c s.reg s.reg := ⟨h, 0, Keep.refl 0 _⟩
  cases e with
  | accept t =>
    simp only [step]; split
    · exact ⟨hset s t _ h (by simp [AMap.keys]) (by simp), 0, Keep.refl 0 _⟩
    · exact base
  | auth t i sec o ok =>
    simp only [step]
    split
    · rename_i tt htt
      split
      · have hfr : (auth s i sec ok).2.tuns = s.tuns ∧ (auth s i sec ok).2.reg = s.reg := by
          unfold auth; split <;> exact ⟨rfl, rfl⟩
        have hm : MapsOK (auth s i sec ok).2 := by unfold MapsOK; rw [hfr.1]; exact h
        split
        · rename_i u s' hh
          rw [hh] at hm hfr
          refine ⟨hset s' t _ hm (h.1 t tt htt) ?_, 0, ?_⟩
          · intro id' u' o' r' hx
            simp at hx
            rw [← hx.2.2.1]; exact he
          · show Keep 0 s.reg s'.reg
            rw [hfr.2]; exact Keep.refl 0 _
        · rename_i s' hh
          rw [hh] at hm hfr
          refine ⟨finish_maps s' t hm, 0, hsh _ _ _ 0 ?_ (finish_shrinks s' t)⟩
          rw [hfr.2]; exact Keep.refl 0 _
      · exact base
    · exact base
  | badOptions t =>
    simp only [step]
    split
    · split
      · exact ⟨finish_maps s t h, 0, hsh _ _ _ 0 (Keep.refl 0 _) (finish_shrinks s t)⟩
      · exact base
    · exact base
  | join t k =>
    simp only [step]
    split
    · rename_i tt htt
      split
      · rename_i i u o r hp
        obtain ⟨hm, c, hk⟩ := joinLoop_maps t i u r o k 5 0 s hw (h.2 t tt i u o r htt hp) h
        split
        · rename_i x hx
          have hm2 := hset _ t { x with clis := insertT x.clis (joinLoop t i u r o k 5 0 s).1, phase := .up } hm (hm.1 t x hx) (by simp)
          split
          · exact ⟨hm2, c, hk⟩
          · exact ⟨finish_maps _ t hm2, c, hsh _ _ _ c hk (finish_shrinks _ t)⟩
        · exact ⟨hm, c, hk⟩
      · exact base
    · exact base
  | close t =>
    simp only [step]
    split
    · split
      · exact ⟨finish_maps s t h, 0, hsh _ _ _ 0 (Keep.refl 0 _) (finish_shrinks s t)⟩
      · exact base
    · exact base
  | expire c => simp only [step]; split <;> exact base
  | checkStart a b => simp only [step]; split <;> exact base
  | checkEnd => exact base

/-- C24: in any history whatever, no event hands a registered prefix from one client to another. -/
theorem no_takeover (m : Mode) (tu : User) (us : AMap String User) (a : Bool) (es : List Ev) (hes : ∀ e ∈ es, EvOK e)
    (e : Ev) (he : EvOK e) (key : String × Bool) (c i c' i' : Nat)
    (h : (run (start m tu us a) es).reg.get key = some (c, i))
    (h' : (step (run (start m tu us a) es) e).reg.get key = some (c', i')) : c' = c := by
  have hrun : ∀ (es : List Ev) (s : Srv), WF s → MapsOK s → (∀ e ∈ es, EvOK e) → MapsOK (run s es) := by
    intro es
    induction es with
    | nil => exact fun s _ h _ => h
    | cons e es ih =>
      intro s hw hm hall
      exact ih _ (hw.step e) (step_maps hw hm e (hall e (by simp))).1 (fun e' he' => hall e' (List.mem_cons_of_mem _ he'))
  have hw := (WF.start m tu us a).run es
  have hm := hrun es (start m tu us a) (WF.start m tu us a) ⟨by simp [start], by simp [start]⟩ hes
  obtain ⟨_, c0, hk⟩ := step_maps hw hm e he
  rcases hk key c' i' h' with ⟨j, hj⟩ | ⟨hn, _⟩
  · rw [h] at hj; simp at hj; exact hj.1.symm
  · rw [h] at hn; simp at hn

example : (∀ e ∈ exRun, EvOK e) := by
  intro e he
  simp only [exRun, List.mem_cons, List.not_mem_nil, or_false] at he
  rcases he with rfl | rfl | rfl | rfl | rfl | rfl | rfl | rfl | rfl | rfl | rfl | rfl | rfl | rfl | rfl <;>
    simp only [EvOK] <;> decide

end Verif.Registry
