import Verif.Registry.PrefixProps
import Verif.Registry.LiveAuth
set_option linter.unusedSimpArgs false
set_option linter.unusedVariables false
/-! # C55: every route was asked for, by its owner, and allowed by the platform -/
namespace Verif.Registry
open Verif

/-- Every registered prefix belongs to a client, and `P` holds of the client's id, the prefix and the variant. -/
def OwnedBy (P : String → String → Bool → Prop) (clis : AMap Nat Cli) (reg : Reg) : Prop :=
  ∀ k c i, reg.get k = some (c, i) → ∃ cl, clis.get c = some cl ∧ P cl.id k.1 k.2

/-- Client objects keep their id and do not disappear. -/
def IdsKept (a b : AMap Nat Cli) : Prop := ∀ c cl, a.get c = some cl → ∃ cl', b.get c = some cl' ∧ cl'.id = cl.id

theorem IdsKept.refl (a : AMap Nat Cli) : IdsKept a a := fun _ cl h => ⟨cl, h, rfl⟩

theorem IdsKept.trans {a b c : AMap Nat Cli} (h : IdsKept a b) (k : IdsKept b c) : IdsKept a c := by
  intro i cl hi
  obtain ⟨x, hx, e⟩ := h i cl hi
  obtain ⟨y, hy, e'⟩ := k i x hx
  exact ⟨y, hy, e'.trans e⟩

theorem IdsKept.setCli {s : Srv} {c : Nat} {cl x : Cli} (hc : s.clis.get c = some cl) (he : x.id = cl.id) :
    IdsKept s.clis (setCli s c x).clis := by
  intro c' cl' h
  rw [setCli_clis]
  by_cases hcc : c = c'
  · subst hcc
    rw [hc] at h
    cases h
    exact ⟨x, by rw [if_pos rfl], he⟩
  · exact ⟨cl', by rw [if_neg hcc]; exact h, rfl⟩

theorem OwnedBy.mono {P clis clis' reg reg'} (h : OwnedBy P clis reg) (hi : IdsKept clis clis') (hr : Shrinks reg reg') :
    OwnedBy P clis' reg' := by
  intro k c i hk
  obtain ⟨cl, hc, hp⟩ := h k c i (hr k _ hk)
  obtain ⟨cl', hc', e⟩ := hi c cl hc
  exact ⟨cl', hc', by rw [e]; exact hp⟩

theorem OwnedBy.weaken {P Q : String → String → Bool → Prop} {clis reg} (h : OwnedBy P clis reg)
    (hq : ∀ a b c, P a b c → Q a b c) : OwnedBy Q clis reg := by
  intro k c i hk
  obtain ⟨cl, hc, hp⟩ := h k c i hk
  exact ⟨cl, hc, hq _ _ _ hp⟩

theorem OwnedBy.set {P clis reg} (h : OwnedBy P clis reg) {p : String} {tls : Bool} {c i : Nat} {cl : Cli}
    (hc : clis.get c = some cl) (hp : P cl.id p tls) : OwnedBy P clis (reg.set (p, tls) (c, i)) := by
  intro k c' i' hk
  rw [AMap.get_set] at hk
  split at hk
  · rename_i he
    subst he
    cases hk
    exact ⟨cl, hc, hp⟩
  · exact h k c' i' hk

theorem OwnedBy.del {P clis reg} (h : OwnedBy P clis reg) (k : String × Bool) : OwnedBy P clis (reg.del k) := by
  intro k' c i hk
  rw [AMap.get_del] at hk
  split at hk
  · cases hk
  · exact h k' c i hk

theorem OwnedBy.foldDel {P clis} (rb : List (String × Bool)) : ∀ {reg : Reg}, OwnedBy P clis reg →
    OwnedBy P clis (rb.foldl (fun m k => m.del k) reg) := by
  induction rb with
  | nil => exact fun h => h
  | cons k rb ih => intro reg h; exact ih (h.del k)

theorem OwnedBy.regAdd {P clis} {c : Nat} {cl : Cli} (hc : clis.get c = some cl) (ids : Ids) :
    ∀ {reg : Reg} (rb : List (String × Bool)), (∀ p v, (p, v) ∈ ids → P cl.id p v.tls) → OwnedBy P clis reg →
    OwnedBy P clis (regAdd c ids reg rb).1 := by
  induction ids with
  | nil => exact fun rb _ h => h
  | cons e r ih =>
    obtain ⟨p, v⟩ := e
    intro reg rb hp h
    have hr : ∀ q w, (q, w) ∈ r → P cl.id q w.tls := fun q w hq => hp q w (List.mem_cons_of_mem _ hq)
    simp only [Registry.regAdd]
    split
    · split
      · exact ih rb hr h
      · exact h.foldDel rb
    · exact ih _ hr (h.set hc (hp p v List.mem_cons_self))

theorem OwnedBy.prune {P clis} {c : Nat} {cl : Cli} (hc : clis.get c = some cl) (new : Ids)
    (hp : ∀ p v, (p, v) ∈ new → P cl.id p v.tls) (old : Ids) :
    ∀ {reg : Reg}, OwnedBy P clis reg → OwnedBy P clis (prune c new old reg) := by
  induction old with
  | nil => exact fun h => h
  | cons e r ih =>
    obtain ⟨p, oo⟩ := e
    intro reg h
    simp only [Registry.prune]
    refine ih ?_
    split
    · exact h.del _
    · rename_i o ho
      split
      · exact h.del _
      · rename_i ht
        split
        · have ht' : oo.tls = o.tls := by simpa using ht
          rw [ht']
          exact h.set hc (hp p o (AMap.mem_of_get _ ho))
        · exact h

/-- The invariant: routes, and the options of tunnels about to join. -/
structure Orig (P : String → String → Bool → Prop) (s : Srv) : Prop where
  owns : OwnedBy P s.clis s.reg
  pend : ∀ t tt id u o r, s.tuns.get t = some tt → tt.phase = .authed id u o r →
    ∀ p v, (p, v) ∈ o.ids → P id p v.tls

theorem removeTunnel_kept (s : Srv) (c t : Nat) : IdsKept s.clis (removeTunnel s c t).clis := by
  unfold removeTunnel
  split
  · exact IdsKept.refl _
  · rename_i cl hc
    split
    · exact IdsKept.refl _
    · split
      · simp only
        obtain ⟨_, e2, _⟩ := removeClient_frame (setCli s c { cl with tunnels := none }) cl.id
        split
        · split
          · simp only [e2]; exact IdsKept.setCli hc rfl
          · rw [e2]; exact IdsKept.setCli hc rfl
        · exact IdsKept.setCli hc rfl
      · exact IdsKept.refl _

theorem finish_kept (s : Srv) (t : Nat) : IdsKept s.clis (finish s t).clis := by
  have key : ∀ (cs : List Nat) (s : Srv), IdsKept s.clis (cs.foldl (fun s c => removeTunnel s c t) s).clis := by
    intro cs
    induction cs with
    | nil => exact fun s => IdsKept.refl _
    | cons c cs ih => intro s; exact (removeTunnel_kept s c t).trans (ih _)
  unfold finish
  split
  · exact IdsKept.refl _
  · simp only
    split
    · exact key _ s
    · exact key _ s

theorem finish_pend {s : Srv} {t t' : Nat} {tt : Tun} {id u o r} (h : (finish s t).tuns.get t' = some tt)
    (hp : tt.phase = .authed id u o r) : s.tuns.get t' = some tt := by
  unfold finish at h
  split at h
  · exact h
  · rename_i x hx
    simp only at h
    obtain ⟨_, b⟩ := foldRemove_sub t x.clis s
    split at h
    · rw [setTun_tuns] at h
      split at h
      · simp at h; subst h; simp at hp
      · rw [b] at h; exact h
    · rw [b] at h; exact h

theorem Orig.finish {P} {s : Srv} (h : Orig P s) (t : Nat) : Orig P (finish s t) :=
  ⟨h.owns.mono (finish_kept s t) (finish_shrinks s t),
    fun t' tt id u o r hg hp => h.pend t' tt id u o r (finish_pend hg hp) hp⟩

theorem Orig.setTun {P} {s : Srv} (h : Orig P s) (t : Nat) (x : Tun)
    (hx : ∀ id u o r, x.phase = .authed id u o r → ∀ p v, (p, v) ∈ o.ids → P id p v.tls) : Orig P (setTun s t x) := by
  refine ⟨h.owns, ?_⟩
  intro t' tt id u o r hg hp
  rw [setTun_tuns] at hg
  split at hg
  · simp at hg; subst hg; exact hx id u o r hp
  · exact h.pend t' tt id u o r hg hp

theorem dropOld_owns {P} (c : Nat) (o : Options) (ts : List Nat) : ∀ (s : Srv) (cl : Cli), s.clis.get c = some cl →
    (∀ p v, (p, v) ∈ o.ids → P cl.id p v.tls) → OwnedBy P s.clis s.reg →
    OwnedBy P (dropOld s c o ts).clis (dropOld s c o ts).reg ∧ (dropOld s c o ts).tuns = s.tuns := by
  induction ts with
  | nil => exact fun s cl _ _ h => ⟨h, rfl⟩
  | cons t ts ih =>
    intro s cl hc hp h
    simp only [dropOld]
    split
    · rename_i cl' tt hc' ht
      rw [hc] at hc'
      cases hc'
      have hk : IdsKept s.clis (setCli s c { cl with tunnels := cl.tunnels.map (fun l => l.erase t), black := lruAdd cl.black tt.cs }).clis :=
        IdsKept.setCli hc rfl
      have hc2 : (setCli s c { cl with tunnels := cl.tunnels.map (fun l => l.erase t), black := lruAdd cl.black tt.cs }).clis.get c =
          some { cl with tunnels := cl.tunnels.map (fun l => l.erase t), black := lruAdd cl.black tt.cs } := by
        rw [setCli_clis, if_pos rfl]
      refine ih { setCli s c { cl with tunnels := cl.tunnels.map (fun l => l.erase t), black := lruAdd cl.black tt.cs } with
          reg := prune c o.ids tt.ids s.reg } _ hc2 hp ?_
      exact OwnedBy.prune hc2 o.ids hp tt.ids (h.mono hk (fun _ _ h => h))
    · exact ih s cl hc hp h

theorem addTunnel_orig {P} {s : Srv} (h : Orig P s) (c t : Nat) (r : Bool) (o : Options) (k : Bool) (cl : Cli)
    (hc : s.clis.get c = some cl) (hp : ∀ p v, (p, v) ∈ o.ids → P cl.id p v.tls) : Orig P (addTunnel s c t r o k).2 := by
  have hph := (addTunnel_sub s c t r o k).2
  refine ⟨?_, ?_⟩
  · unfold addTunnel
    rw [hc]
    split
    · rename_i cl' tt hc' ht
      cases hc'
      split
      · exact h.owns
      · split
        · exact h.owns
        · rename_i l hl
          have hk : IdsKept s.clis (setCli s c { cl with tunnels := some (insertT l t) }).clis := IdsKept.setCli hc rfl
          have hc2 : (setCli s c { cl with tunnels := some (insertT l t) }).clis.get c =
              some { cl with tunnels := some (insertT l t) } := by rw [setCli_clis, if_pos rfl]
          have hbase : OwnedBy P (setCli s c { cl with tunnels := some (insertT l t) }).clis s.reg :=
            h.owns.mono hk (fun _ _ h => h)
          split
          · exact h.owns
          · split
            · exact hbase
            · simp only
              have hadd := OwnedBy.regAdd hc2 o.ids [] hp hbase
              split
              · rename_i reg hreg
                have e : (setCli s c { cl with tunnels := some (insertT l t) }).reg = s.reg := rfl
                rw [e] at hreg
                rw [hreg] at hadd
                exact hadd
              · rename_i reg hreg
                have e : (setCli s c { cl with tunnels := some (insertT l t) }).reg = s.reg := rfl
                rw [e] at hreg
                rw [hreg] at hadd
                have hpr := OwnedBy.prune hc2 o.ids hp tt.ids hadd
                split
                · exact hpr
                · have hc3 : (setCli (setTun { setCli s c { cl with tunnels := some (insertT l t) } with reg := prune c o.ids tt.ids reg } t { tt with ids := o.ids, cs := o.cs }) c { cl with tunnels := some (insertT l t), last := o.cs }).clis.get c = some { cl with tunnels := some (insertT l t), last := o.cs } := by
                    rw [setCli_clis, if_pos rfl]
                  have hk3 : IdsKept (setCli s c { cl with tunnels := some (insertT l t) }).clis
                      (setCli (setTun { setCli s c { cl with tunnels := some (insertT l t) } with reg := prune c o.ids tt.ids reg } t { tt with ids := o.ids, cs := o.cs }) c { cl with tunnels := some (insertT l t), last := o.cs }).clis :=
                    IdsKept.setCli (s := setTun { setCli s c { cl with tunnels := some (insertT l t) } with reg := prune c o.ids tt.ids reg } t { tt with ids := o.ids, cs := o.cs }) hc2 rfl
                  have hown3 := hpr.mono hk3 (fun _ _ h => h)
                  split
                  · exact hown3
                  · exact (dropOld_owns c o _ _ _ hc3 hp hown3).1
    · exact h.owns
  · intro t' tt id u o' r' hg hpp
    obtain ⟨tt0, h0, e0⟩ := hph t' tt hg
    exact h.pend t' tt0 id u o' r' h0 (by rw [e0]; exact hpp)

theorem getOrCreate_kept {s : Srv} (hw : WF s) (id : String) (u : User) :
    IdsKept s.clis (getOrCreate s id u).2.clis := by
  unfold getOrCreate
  split
  · exact IdsKept.refl _
  · intro c cl h
    have := hw.w3 c cl h
    refine ⟨cl, ?_, rfl⟩
    simp only [AMap.get_set]
    rw [if_neg (by omega)]
    exact h

theorem joinLoop_orig {P} (t : Nat) (id : String) (u : User) (r : Bool) (o : Options) (k : Bool)
    (hp : ∀ p v, (p, v) ∈ o.ids → P id p v.tls) (n : Nat) : ∀ (c : Nat) (s : Srv), WF s → Orig P s →
    Orig P (joinLoop t id u r o k n c s).2.2 := by
  induction n with
  | zero => exact fun c s _ h => h
  | succ n ih =>
    intro c s hw h
    simp only [joinLoop]
    obtain ⟨a1, a2, cl, a3, a4⟩ := getOrCreate_sub hw id u
    obtain ⟨f1, f2⟩ := getOrCreate_frame s id u
    have hw1 := hw.getOrCreate id u
    have hw2 := hw1.addTunnel (getOrCreate s id u).1 t r o k
    have h1 : Orig P (getOrCreate s id u).2 := by
      refine ⟨h.owns.mono (getOrCreate_kept hw id u) (by rw [f2]; exact fun _ _ h => h), ?_⟩
      rw [f1]; exact h.pend
    have h2 := addTunnel_orig h1 (getOrCreate s id u).1 t r o k cl a3 (by rw [a4]; exact hp)
    split
    · rename_i s' hs'
      rw [hs'] at h2 hw2
      exact ih _ s' hw2 h2
    · rename_i r' s' _ hs'
      rw [hs'] at h2
      exact h2

theorem Orig.weaken {P Q : String → String → Bool → Prop} {s : Srv} (h : Orig P s) (hq : ∀ a b c, P a b c → Q a b c) :
    Orig Q s :=
  ⟨h.owns.weaken hq, fun t tt id u o r hg hp p v hm => hq _ _ _ (h.pend t tt id u o r hg hp p v hm)⟩

theorem Orig.step {P Q : String → String → Bool → Prop} (hq : ∀ a b c, P a b c → Q a b c) {s : Srv} (hw : WF s)
    (h : Orig P s) (e : Ev)
    (hnew : ∀ t id sec o ans, e = .auth t id sec o ans → Accepts s id sec ans → ∀ p v, (p, v) ∈ o.ids → Q id p v.tls) :
    Orig Q (step s e) := by
  have h' := h.weaken hq
  cases e with
  | accept t =>
    simp only [Registry.step]; split
    · exact h'.setTun t _ (by simp)
    · exact h'
  | auth t i sec o ok =>
    simp only [Registry.step]
    split
    · rename_i tt htt
      split
      · have hau : Orig Q (auth s i sec ok).2 := by
          unfold auth; split <;> exact ⟨h'.owns, h'.pend⟩
        split
        · rename_i u s' hh
          rw [hh] at hau
          refine hau.setTun t _ ?_
          intro id u' o' r' hx p v hm
          simp at hx
          obtain ⟨rfl, _, rfl, _⟩ := hx
          exact hnew t i sec o ok rfl (by unfold Accepts; rw [hh]; rfl) p v hm
        · rename_i s' hh
          rw [hh] at hau
          exact hau.finish t
      · exact h'
    · exact h'
  | badOptions t =>
    simp only [Registry.step]
    split
    · split
      · exact h'.finish t
      · exact h'
    · exact h'
  | join t k =>
    simp only [Registry.step]
    split
    · rename_i tt htt
      split
      · rename_i i u o r hp
        have hj := joinLoop_orig (P := Q) t i u r o k (h'.pend t tt i u o r htt hp) 5 0 s hw h'
        split
        · split
          · exact hj.setTun t _ (by simp)
          · exact (hj.setTun t _ (by simp)).finish t
        · exact hj
      · exact h'
    · exact h'
  | close t =>
    simp only [Registry.step]
    split
    · split
      · exact h'.finish t
      · exact h'
    · exact h'
  | expire c =>
    simp only [Registry.step]; split
    · rename_i cl hc
      exact ⟨h'.owns.mono (IdsKept.setCli hc rfl) (fun _ _ h => h), h'.pend⟩
    · exact h'
  | checkStart a b =>
    simp only [Registry.step]; split
    · exact ⟨h'.owns, h'.pend⟩
    · exact h'
  | checkEnd => exact ⟨h'.owns, h'.pend⟩

/-- Somewhere in the history a tunnel of `id` whose credentials were accepted asked for this prefix. -/
def AskedFor (s0 : Srv) (es : List Ev) (id p : String) (tls : Bool) : Prop :=
  ∃ pre t sec o ans post, es = pre ++ .auth t id sec o ans :: post ∧ Accepts (run s0 pre) id sec ans ∧
    ∃ v, (p, v) ∈ o.ids ∧ v.tls = tls

theorem Orig.run {s : Srv} (hw : WF s) {P} (h : Orig P s) (es : List Ev) :
    Orig (fun id p tls => P id p tls ∨ AskedFor s es id p tls) (Registry.run s es) := by
  induction es generalizing s P with
  | nil => exact h.weaken (fun _ _ _ => Or.inl)
  | cons e es ih =>
    have h1 := h.step (Q := fun id p tls => P id p tls ∨ ∃ t sec o ans, e = .auth t id sec o ans ∧ Accepts s id sec ans ∧
        ∃ v, (p, v) ∈ o.ids ∧ v.tls = tls)
      (fun _ _ _ => Or.inl) hw e (fun t id sec o ans he ha p v hm => Or.inr ⟨t, sec, o, ans, he, ha, v, hm, rfl⟩)
    refine (ih (hw.step e) h1).weaken ?_
    intro id p tls hh
    rcases hh with (hh | ⟨t, sec, o, ans, he, ha, hv⟩) | ⟨pre, t, sec, o, ans, post, he, ha, hv⟩
    · exact Or.inl hh
    · exact Or.inr ⟨[], t, sec, o, ans, es, by rw [he]; rfl, ha, hv⟩
    · exact Or.inr ⟨e :: pre, t, sec, o, ans, post, by rw [he]; rfl, ha, hv⟩

/-- **C55**: in every history and every authentication mode, a prefix is routed to a client only if a tunnel that
the server accepted under that client's id asked for it, in that variant (TLS or not). -/
theorem route_was_asked_for (m : Mode) (tu : User) (us : AMap String User) (a : Bool) (es : List Ev)
    (p : String) (tls : Bool) (c i : Nat) (h : (run (start m tu us a) es).reg.get (p, tls) = some (c, i)) :
    ∃ cl, (run (start m tu us a) es).clis.get c = some cl ∧ AskedFor (start m tu us a) es cl.id p tls := by
  have h0 : Orig (fun _ _ _ => False) (start m tu us a) :=
    ⟨by intro k c i hk; simp [start] at hk, by intro t tt id u o r hg; simp [start] at hg⟩
  obtain ⟨cl, hc, hp⟩ := (Orig.run (WF.start m tu us a) h0 es).owns (p, tls) c i h
  exact ⟨cl, hc, hp.resolve_left id⟩

/-! ## Authentication by a platform -/

/-- The platform's answer (libcs/server/server.go:596-642): `none` if the request failed, `some none` for a refusal,
`some (some l)` for an acceptance with the list `appletTokens` (empty if absent). -/
abbrev Answer := Option (Option (List String))

/-- `u.Host.Prefixes` (libcs/server/server.go:631-640, 848); a health-check user has none. -/
def platformPrefixes (id : String) : Answer → List String
  | some (some l) => id :: l
  | _ => []

/-- libcs/server/conn.go:469-483: prefixes unknown to the platform are dropped. The checksum was computed before. -/
def platformFilter (id : String) (ans : Answer) (o : Options) : Options :=
  { o with ids :=
      if 0 < (platformPrefixes id ans).length then o.ids.filter (fun e => e.1 ∈ platformPrefixes id ans)
      else o.ids.filter (fun e => e.1 = id) }

/-- What happens to a server with a platform: handshakes, with the options as the client sent them, and the other
events. -/
inductive PEv where
  | handshake (t : Nat) (id sec : String) (o : Options) (ans : Answer)
  | accept (t : Nat)
  | badOptions (t : Nat)
  | join (t : Nat) (tcpOk : Bool)
  | close (t : Nat)
  | expire (c : Nat)
  | checkStart (id sec : String)
  | checkEnd
deriving Repr

/-- libcs/server/conn.go:430-484. -/
def PEv.ev : PEv → Ev
  | .handshake t id sec o ans => .auth t id sec (platformFilter id ans o) (ans.map Option.isSome)
  | .accept t => .accept t
  | .badOptions t => .badOptions t
  | .join t k => .join t k
  | .close t => .close t
  | .expire c => .expire c
  | .checkStart i s => .checkStart i s
  | .checkEnd => .checkEnd

/-- **C55**: with a platform, a prefix is routed to a client only if it is the client's id or the platform named it
in an answer for that id, and the client asked for it in that handshake. -/
theorem platform_routes_allowed (tu : User) (us : AMap String User) (a : Bool) (es : List PEv)
    (p : String) (tls : Bool) (c i : Nat)
    (h : (run (start .api tu us a) (es.map PEv.ev)).reg.get (p, tls) = some (c, i)) :
    ∃ cl t sec o ans, (run (start .api tu us a) (es.map PEv.ev)).clis.get c = some cl ∧
      .handshake t cl.id sec o ans ∈ es ∧ (∃ v, (p, v) ∈ o.ids ∧ v.tls = tls) ∧
      (p = cl.id ∨ ∃ l, ans = some (some l) ∧ p ∈ l) := by
  obtain ⟨cl, hc, pre, t, sec, o, ans, post, he, ha, v, hv, hvt⟩ := route_was_asked_for .api tu us a _ p tls c i h
  have hm : Ev.auth t cl.id sec o ans ∈ es.map PEv.ev := by
    rw [he]; exact List.mem_append.mpr (Or.inr List.mem_cons_self)
  obtain ⟨pe, hpe, hev⟩ := List.mem_map.mp hm
  cases pe with
  | handshake t' id' sec' o' ans' =>
    simp only [PEv.ev, Ev.auth.injEq] at hev
    obtain ⟨rfl, rfl, rfl, rfl, _⟩ := hev
    refine ⟨cl, t', sec', o', ans', hc, hpe, ?_⟩
    simp only [platformFilter] at hv
    split at hv
    · rename_i hl
      have hv' := List.mem_filter.mp hv
      refine ⟨⟨v, hv'.1, hvt⟩, ?_⟩
      have hin : p ∈ platformPrefixes cl.id ans' := by simpa using hv'.2
      match ans', hin with
      | some (some l), hin =>
        rcases List.mem_cons.mp hin with hin | hin
        · exact Or.inl hin
        · exact Or.inr ⟨l, rfl, hin⟩
      | some none, hin => cases hin
      | none, hin => cases hin
    · have hv' := List.mem_filter.mp hv
      exact ⟨⟨v, hv'.1, hvt⟩, Or.inl (by simpa using hv'.2)⟩
  | accept t' => simp [PEv.ev] at hev
  | badOptions t' => simp [PEv.ev] at hev
  | join t' k' => simp [PEv.ev] at hev
  | close t' => simp [PEv.ev] at hev
  | expire c' => simp [PEv.ev] at hev
  | checkStart a' b' => simp [PEv.ev] at hev
  | checkEnd => simp [PEv.ev] at hev

def exReq : Options := ⟨[("x", ⟨0, false⟩), ("shop", ⟨1, false⟩), ("bank", ⟨2, false⟩)], 7, 0⟩

/-- The platform grants `shop` and not `bank`. -/
theorem platform_example :
    (run (start .api ⟨"", false, 3, false⟩ [] false)
      ([.accept 1, .handshake 1 "x" "s" exReq (some (some ["shop", "mall"])), .join 1 true].map PEv.ev)).reg =
      [(("x", false), (0, 0)), (("shop", false), (0, 1))] := by decide +kernel

/-- **What goes wrong**: the checksum does not cover the platform's answer. A second tunnel with the same services
joins after the platform has withdrawn `shop`; when both tunnels are gone, `shop` is still registered, and another
client to which the platform now grants it is refused. -/
theorem platform_revocation_leaks :
    let s := run (start .api ⟨"", false, 3, false⟩ [] false)
      ([.accept 1, .handshake 1 "x" "s" exReq (some (some ["shop"])), .join 1 true,
        .accept 2, .handshake 2 "x" "s" exReq (some (some [])), .join 2 true,
        .close 1, .close 2].map PEv.ev)
    s.id2cli = [] ∧ s.reg.get ("shop", false) = some (0, 1) ∧
    (let s' := run s ([.accept 3, .handshake 3 "y" "s" ⟨[("shop", ⟨0, false⟩)], 8, 0⟩ (some (some ["shop"])),
        .join 3 true].map PEv.ev)
     s'.id2cli = [] ∧ s'.reg.get ("shop", false) = some (0, 1)) := by decide +kernel

/-- **What goes wrong**: a prefix the platform grants later is not routed for a tunnel with the same services. -/
theorem platform_grant_ignored :
    let s := run (start .api ⟨"", false, 3, false⟩ [] false)
      ([.accept 1, .handshake 1 "x" "s" exReq (some (some [])), .join 1 true,
        .accept 2, .handshake 2 "x" "s" exReq (some (some ["shop"])), .join 2 true].map PEv.ev)
    s.reg.get ("x", false) = some (0, 0) ∧ s.reg.get ("shop", false) = none := by decide +kernel

end Verif.Registry
