import Verif.Registry.Prefix
set_option linter.unusedSimpArgs false
set_option linter.unusedVariables false
namespace Verif.Registry
open Verif

variable {cfg : Nat → Ids}

/-- What a join needs to know about the state in front of `addTunnel`. -/
structure JoinPre (s : Srv) (c t : Nat) (r : Bool) (o : Options) (k : Bool) (cl : Cli) (l : List Nat) (tt : Tun) : Prop where
  hc : s.clis.get c = some cl
  hl : cl.tunnels = some l
  ht : s.tuns.get t = some tt
  hr : r = true → t ∈ l
  hnr : r = false → tt.cs = 0 ∧ tt.clis = []
  hst : cl.last ≠ o.cs → (∀ t' ∈ l, ∀ tt', s.tuns.get t' = some tt' → tt'.cs = cl.last) ∧ (portsFail cl o k = true → l = [] ∨ l = [t])
  leave : LeaveOK s t

/-- The state after `addTunnel`, with the client noted for the clean-up. -/
def joined (s : Srv) (c t : Nat) (res : AddRes × Srv) : Srv :=
  match res.2.tuns.get t with
  | some tt => setTun res.2 t { tt with clis := insertT tt.clis c, phase := .up }
  | none => res.2

theorem addTunnel_pi {s : Srv} (hw : WF s) (h : PI cfg s) (hcfg : ∀ n, (cfg n).keys.Nodup) (h0 : cfg 0 = [])
    {c t : Nat} {r : Bool} {o : Options} {k : Bool} {cl : Cli} {l : List Nat} {tt : Tun}
    (hp : JoinPre s c t r o k cl l tt) (ho : o.ids = cfg o.cs) :
    ((addTunnel s c t r o k).1 = .ok ∧ PI cfg (joined s c t (addTunnel s c t r o k))) ∨
    ((addTunnel s c t r o k).1 = .err ∧ PF cfg (joined s c t (addTunnel s c t r o k)) t) := by
  obtain ⟨own, e1, e2⟩ := h.ex
  have hown := e2 c cl l hp.hc hp.hl
  have hnew : t ∈ l ∨ tt.clis = [] := by
    cases r with
    | true => exact Or.inl (hp.hr rfl)
    | false => exact Or.inr (hp.hnr rfl).2
  -- the clean-up condition for clients that hold only `t`, in a state with the same `ids` of `t`
  have hleave : ∀ c' cl', s.clis.get c' = some cl' → cl'.tunnels = some [t] → tt.ids = own c' := by
    intro c' cl' a b
    rw [h.base.ids t tt hp.ht, e2 c' cl' _ a b, hp.leave tt c' cl' hp.ht (h.base.mem c' cl' [t] t tt a b (by simp) hp.ht) a b]
  -- nothing changed
  have unch : PF cfg (joined s c t (.err, s)) t := by
    unfold joined
    simp only [hp.ht]
    refine ⟨h.base.join (x := cl) (l2 := l) hp.hc hp.hl hp.ht ?_ (fun t' => setTun_tuns s t t' _) hp.hl (fun y hy => Or.inl hy) ?_
      (h.base.ids t tt hp.ht) rfl rfl (fun _ => hnew), own, e1.setTun t _, fun c' cl' l' a b _ => e2 c' cl' l' a b, ?_⟩
    · intro c'
      show s.clis.get c' = _
      split
      · rename_i he; subst he; exact hp.hc
      · rfl
    · intro hl0; subst hl0; exact h.base.emp c cl hp.hc hp.hl
    · intro tt' c' cl' hg a b
      rw [setTun_tuns] at hg; simp at hg; subst hg
      exact hleave c' cl' a b
  unfold addTunnel
  simp only [hp.hc, hp.ht]
  split
  · exact Or.inr ⟨rfl, unch⟩
  · simp only [hp.hl]
    split
    · exact Or.inr ⟨rfl, unch⟩
    · split
      · -- same configuration as last processed
        rename_i hlast
        refine Or.inl ⟨rfl, ?_⟩
        unfold joined
        simp only [setTun_tuns, if_true]
        refine ⟨h.base.join (x := { cl with tunnels := some (insertT l t) }) (l2 := insertT l t) (tt2 := { tt with ids := o.ids, cs := o.cs, clis := insertT tt.clis c, phase := .up })
          hp.hc hp.hl hp.ht (fun c' => setCli_clis s c c' _) ?_ rfl
          (fun y hy => (mem_insertT l t y).mp hy) (fun hx => absurd hx (insertT_ne_nil l t)) ho rfl rfl (fun _ => hnew), own, ?_, ?_⟩
        · intro t'
          rw [setTun_tuns]
          split
          · rfl
          · rename_i hne
            rw [setTun_tuns, if_neg hne]; rfl
        · exact ((e1.setCli c cl { cl with tunnels := some (insertT l t) } hp.hc (by simp [hp.hl])).setTun t _).setTun t _
        · intro c' cl' l' a b
          replace a : (setCli s c { cl with tunnels := some (insertT l t) }).clis.get c' = some cl' := a
          rw [setCli_clis] at a
          split at a
          · rename_i he; subst he; simp at a; subst a; exact hown
          · exact e2 c' cl' l' a b
      · rename_i hlast
        obtain ⟨hall, hports⟩ := hp.hst hlast
        have hreg0 : (setCli s c { cl with tunnels := some (insertT l t) }).reg = s.reg := rfl
        rw [hreg0]
        split
        · -- conflict
          rename_i reg hreg
          refine Or.inr ⟨rfl, ?_⟩
          have hsame : ∀ key, reg.get key = s.reg.get key := by
            have := (regAdd_get c o.ids s.reg s.reg [] (by rw [ho]; exact hcfg _) (by intro key; simp)).1
            rw [hreg] at this; exact this rfl
          unfold joined
          have htg : (setCli s c { cl with tunnels := some (insertT l t) }).tuns.get t = some tt := hp.ht
          simp only [htg]
          refine ⟨h.base.join (x := { cl with tunnels := some (insertT l t) }) (l2 := insertT l t) (tt2 := { tt with clis := insertT tt.clis c, phase := .up })
            hp.hc hp.hl hp.ht (fun c' => setCli_clis s c c' _) (fun t' => setTun_tuns _ t t' _) rfl
            (fun y hy => (mem_insertT l t y).mp hy) (fun hx => absurd hx (insertT_ne_nil l t)) (h.base.ids t tt hp.ht) rfl rfl (fun _ => hnew), own, ?_, ?_, ?_⟩
          · refine e1.same (x := { cl with tunnels := some (insertT l t) }) hp.hc hp.hl (fun c' => ?_) rfl hsame
            exact setCli_clis s c c' _
          · intro c' cl' l' a b _
            replace a : (setCli s c { cl with tunnels := some (insertT l t) }).clis.get c' = some cl' := a
            rw [setCli_clis] at a
            split at a
            · rename_i he; subst he; simp at a; subst a; exact hown
            · exact e2 c' cl' l' a b
          · intro tt' c' cl' hg a b
            rw [setTun_tuns] at hg; simp at hg; subst hg
            replace a : (setCli s c { cl with tunnels := some (insertT l t) }).clis.get c' = some cl' := a
            rw [setCli_clis] at a
            split at a
            · rename_i he; subst he; simp at a; subst a
              simp at b
              rcases insertT_singleton b with hl0 | hl0
              · subst hl0
                have hr : r = false := by
                  cases r with
                  | false => rfl
                  | true => have := hp.hr rfl; simp at this
                show tt.ids = _
                rw [h.base.ids t tt hp.ht, hown, (hp.hnr hr).1, h.base.emp c cl hp.hc hp.hl]
              · subst hl0; exact hleave c cl hp.hc hp.hl
            · exact hleave c' cl' a b
        · -- registered
          rename_i reg hreg
          have hA : (own c).keys.Nodup := e1.nd c
          have hN : o.ids.keys.Nodup := by rw [ho]; exact hcfg _
          obtain ⟨hclean, hoth⟩ := add_prune hA hN (e1.live c cl l hp.hc hp.hl) hreg
          -- when `t` already runs the client's configuration, or the client holds nothing
          have htids : (r = true ∨ l = []) → prune c o.ids tt.ids reg = prune c o.ids (own c) reg := by
            intro hx
            have : tt.ids = own c := by
              rw [h.base.ids t tt hp.ht, hown]
              by_cases hr : r = true
              · rw [hall t (hp.hr hr) tt hp.ht]
              · rcases hx with hx | hx
                · exact absurd hx hr
                · subst hx
                  rw [(hp.hnr (by simpa using hr)).1, h.base.emp c cl hp.hc hp.hl]
            rw [this]
          split
          · -- ports failed: the tunnel was alone
            rename_i hpf
            refine Or.inr ⟨rfl, ?_⟩
            have hl01 := hports hpf
            have hrl : r = true ∨ l = [] := by
              rcases hl01 with hl0 | hl0
              · exact Or.inr hl0
              · cases r with
                | true => exact Or.inl rfl
                | false =>
                  have := h.base.mem c cl l t tt hp.hc hp.hl (by rw [hl0]; simp) hp.ht
                  rw [(hp.hnr rfl).2] at this; simp at this
            have hl2 : insertT l t = [t] := by
              rcases hl01 with hl0 | hl0 <;> simp [hl0, insertT]
            rw [htids hrl]
            unfold joined
            simp only [setTun_tuns, if_true]
            refine ⟨h.base.join (x := { cl with tunnels := some (insertT l t) }) (l2 := insertT l t) (tt2 := { tt with ids := o.ids, cs := o.cs, clis := insertT tt.clis c, phase := .up })
              hp.hc hp.hl hp.ht (fun c' => setCli_clis s c c' _) ?_ rfl
              (fun y hy => (mem_insertT l t y).mp hy) (fun hx => absurd hx (insertT_ne_nil l t)) ho rfl rfl (fun _ => hnew),
              fun c' => if c' = c then o.ids else own c', ?_, ?_, ?_⟩
            · intro t'
              rw [setTun_tuns]
              split
              · rfl
              · rename_i hne
                rw [setTun_tuns, if_neg hne]; rfl
            · refine e1.update (x := { cl with tunnels := some (insertT l t) }) hp.hc (fun c' => ?_) rfl hN hclean.1 hoth
              exact setCli_clis s c c' _
            · intro c' cl' l' a b hne
              replace a : (setCli s c { cl with tunnels := some (insertT l t) }).clis.get c' = some cl' := a
              rw [setCli_clis] at a
              split at a
              · rename_i he; subst he; simp at a; subst a
                simp at b; rw [← b] at hne; exact absurd hl2 hne
              · rename_i he; simp only [Ne.symm he, if_false]; exact e2 c' cl' l' a b
            · intro tt' c' cl' hg a b
              rw [setTun_tuns] at hg; simp at hg; subst hg
              replace a : (setCli s c { cl with tunnels := some (insertT l t) }).clis.get c' = some cl' := a
              rw [setCli_clis] at a
              split at a
              · rename_i he; subst he; simp
              · rename_i he
                exfalso
                -- `t` would belong to two clients
                have h1 := h.base.mem c' cl' [t] t tt a b (by simp) hp.ht
                rcases hnew with hx | hx
                · exact he (h.base.one t c cl l c' cl' [t] hp.hc hp.hl hx a b (by simp))
                · rw [hx] at h1; simp at h1
          · rename_i hpf
            refine Or.inl ?_
            split
            · -- reload
              rename_i hr
              refine ⟨rfl, ?_⟩
              rw [htids (Or.inl hr)]
              unfold joined
              have htg : (setCli (setTun { setCli s c { cl with tunnels := some (insertT l t) } with reg := prune c o.ids (own c) reg } t
                { tt with ids := o.ids, cs := o.cs }) c { cl with tunnels := some (insertT l t), last := o.cs }).tuns.get t =
                  some { tt with ids := o.ids, cs := o.cs } := by
                show (setTun _ t _).tuns.get t = _
                rw [setTun_tuns]; simp
              simp only [htg]
              have hclis : ∀ c', (setCli (setTun { setCli s c { cl with tunnels := some (insertT l t) } with reg := prune c o.ids (own c) reg } t
                { tt with ids := o.ids, cs := o.cs }) c { cl with tunnels := some (insertT l t), last := o.cs }).clis.get c' =
                  if c = c' then some { cl with tunnels := some (insertT l t), last := o.cs } else s.clis.get c' := by
                intro c'
                rw [setCli_clis]
                split
                · rfl
                · rename_i hne
                  show (setCli s c _).clis.get c' = _
                  rw [setCli_clis, if_neg hne]
              refine ⟨h.base.join (x := { cl with tunnels := some (insertT l t), last := o.cs }) (l2 := insertT l t) (tt2 := { tt with ids := o.ids, cs := o.cs, clis := insertT tt.clis c, phase := .up })
                hp.hc hp.hl hp.ht hclis ?_ rfl
                (fun y hy => (mem_insertT l t y).mp hy) (fun hx => absurd hx (insertT_ne_nil l t)) ho rfl rfl (fun _ => hnew),
                fun c' => if c' = c then o.ids else own c', ?_, ?_⟩
              · intro t'
                rw [setTun_tuns]
                split
                · rfl
                · rename_i hne
                  show (setTun _ t _).tuns.get t' = _
                  rw [setTun_tuns, if_neg hne]; rfl
              · exact e1.update hp.hc hclis rfl hN hclean.1 hoth
              · intro c' cl' l' a b
                rw [show (setTun (setCli (setTun { setCli s c { cl with tunnels := some (insertT l t) } with reg := prune c o.ids (own c) reg } t
                { tt with ids := o.ids, cs := o.cs }) c { cl with tunnels := some (insertT l t), last := o.cs }) t _).clis.get c' = _ from hclis c'] at a
                split at a
                · rename_i he; subst he; simp at a; subst a; simp [ho]
                · rename_i he; simp only [Ne.symm he, if_false]; exact e2 c' cl' l' a b
            · -- a new process with a new configuration: the old tunnels are closed
              rename_i hr
              have hr : r = false := by simpa using hr
              obtain ⟨hcs0, hcl0⟩ := hp.hnr hr
              have hids0 : tt.ids = [] := by rw [h.base.ids t tt hp.ht, hcs0, h0]
              refine ⟨rfl, ?_⟩
              rw [hids0, prune_nil]
              have htl : t ∉ l := by
                intro hm
                have := h.base.mem c cl l t tt hp.hc hp.hl hm hp.ht
                rw [hcl0] at this; simp at this
              generalize hS : (setCli (setTun { setCli s c { cl with tunnels := some (insertT l t) } with reg := reg } t
                { tt with ids := o.ids, cs := o.cs }) c { cl with tunnels := some (insertT l t), last := o.cs }) = S
              have hSc : ∀ c', S.clis.get c' = if c = c' then some { cl with tunnels := some (insertT l t), last := o.cs } else s.clis.get c' := by
                intro c'
                rw [← hS, setCli_clis]
                split
                · rfl
                · rename_i hne
                  show (setCli s c _).clis.get c' = _
                  rw [setCli_clis, if_neg hne]
              have hSt : ∀ t', S.tuns.get t' = if t = t' then some { tt with ids := o.ids, cs := o.cs } else s.tuns.get t' := by
                intro t'
                rw [← hS]
                show (setTun _ t _).tuns.get t' = _
                rw [setTun_tuns]; rfl
              have hSr : S.reg = reg := by rw [← hS]; rfl
              -- the closed tunnels are exactly the previous ones
              have hold : ∀ t', t' ∈ oldTunnels S (insertT l t) o.cs ↔ t' ∈ l := by
                intro t'
                unfold oldTunnels
                rw [List.mem_filter, mem_insertT]
                constructor
                · rintro ⟨hm, hx⟩
                  rcases hm with hm | rfl
                  · exact hm
                  · rw [hSt] at hx; simp at hx
                · intro hm
                  refine ⟨Or.inl hm, ?_⟩
                  have hne : t ≠ t' := fun he => htl (he ▸ hm)
                  obtain ⟨tt', ht'⟩ := hw.w4 c cl l t' hp.hc hp.hl hm
                  rw [hSt, if_neg hne, ht']
                  simp only [ne_eq, decide_eq_true_eq]
                  rw [hall t' hm tt' ht']; exact hlast
              -- the registry: with old tunnels the first pruning makes it exact, later ones change nothing
              have hcleanfold : ∃ x, (∀ c', (dropOld S c o (oldTunnels S (insertT l t) o.cs)).clis.get c' = if c = c' then some x else S.clis.get c') ∧
                  x.tunnels = some ((oldTunnels S (insertT l t) o.cs).foldl (fun l t => l.erase t) (insertT l t)) ∧ x.last = o.cs ∧
                  Owns (dropOld S c o (oldTunnels S (insertT l t) o.cs)).reg c o.ids ∧
                  Others c s.reg (dropOld S c o (oldTunnels S (insertT l t) o.cs)).reg := by
                have hts : ∀ t' ∈ oldTunnels S (insertT l t) o.cs, ∃ tt', S.tuns.get t' = some tt' ∧ tt'.ids = own c := by
                  intro t' hm
                  have hm' := (hold t').mp hm
                  have hne : t ≠ t' := fun he => htl (he ▸ hm')
                  obtain ⟨tt', ht'⟩ := hw.w4 c cl l t' hp.hc hp.hl hm'
                  refine ⟨tt', by rw [hSt, if_neg hne]; exact ht', ?_⟩
                  rw [h.base.ids t' tt' ht', hall t' hm' tt' ht', hown]
                let P1 : Reg → Prop := fun r => Clean r c o.ids (own c) ∧ Others c s.reg r
                have hP1 : ∀ r, P1 r → P1 (prune c o.ids (own c) r) := by
                  intro r ⟨ha, hb⟩
                  have hk := prune_clean hA ha
                  refine ⟨ha.congr hk, ?_⟩
                  intro c' key i hc'
                  rw [hk]; exact hb c' key i hc'
                cases hts' : oldTunnels S (insertT l t) o.cs with
                | nil =>
                  have hl0 : l = [] := by
                    cases l with
                    | nil => rfl
                    | cons a r => have := (hold a).mpr (by simp); rw [hts'] at this; simp at this
                  have hown0 : own c = [] := by
                    subst hl0
                    rw [hown, h.base.emp c cl hp.hc hp.hl, h0]
                  rw [hown0, prune_nil] at hclean
                  rw [hown0, prune_nil] at hoth
                  refine ⟨{ cl with tunnels := some (insertT l t), last := o.cs }, ?_, rfl, rfl, ?_, ?_⟩
                  · intro c'
                    simp only [dropOld]
                    rw [hSc]
                    split
                    · rfl
                    · rfl
                  · simp only [dropOld, hSr]; exact hclean.1
                  · simp only [dropOld, hSr]; exact hoth
                | cons t1 ts =>
                  rw [hts'] at hts
                  have hSc1 := hSc c
                  rw [if_pos rfl] at hSc1
                  obtain ⟨tt1, ht1, hi1⟩ := hts t1 (by simp)
                  have hd : dropOld S c o (t1 :: ts) = dropOld ({ setCli S c { cl with tunnels := some ((insertT l t).erase t1), last := o.cs, black := lruAdd cl.black tt1.cs } with reg := prune c o.ids (own c) S.reg }) c o ts := by
                    simp only [dropOld, hSc1, ht1, Option.map_some, hi1]; rfl
                  obtain ⟨x, g1, g2, g3, g4⟩ := dropOld_spec c o (own c) P1 hP1 ts
                    ({ setCli S c { cl with tunnels := some ((insertT l t).erase t1), last := o.cs, black := lruAdd cl.black tt1.cs } with reg := prune c o.ids (own c) S.reg })
                    { cl with tunnels := some ((insertT l t).erase t1), last := o.cs, black := lruAdd cl.black tt1.cs } ((insertT l t).erase t1)
                    (by show (setCli S c _).clis.get c = _; rw [setCli_clis]; simp) rfl
                    (fun t' ht' => hts t' (List.mem_cons_of_mem _ ht'))
                    (by show P1 (prune c o.ids (own c) S.reg); rw [hSr]; exact ⟨hclean, hoth⟩)
                  rw [hd]
                  refine ⟨x, ?_, g2, g3, g4.1.1, g4.2⟩
                  intro c'
                  refine (g1 c').trans ?_
                  by_cases he : c = c'
                  · simp [he]
                  · simp only [he, if_false]
                    show (setCli S c _).clis.get c' = _
                    rw [setCli_clis, if_neg he]
              obtain ⟨x, g1, g2, g3, g4, g5⟩ := hcleanfold
              have htun := (dropOld_sub c o (oldTunnels S (insertT l t) o.cs) S).2
              have hold' : ∀ y ∈ (oldTunnels S (insertT l t) o.cs).foldl (fun l t => l.erase t) (insertT l t), y ∈ l ∨ y = t :=
                fun y hy => (mem_insertT l t y).mp ((foldErase_mem _ _ y).1 hy)
              have htin : t ∈ (oldTunnels S (insertT l t) o.cs).foldl (fun l t => l.erase t) (insertT l t) :=
                (foldErase_mem _ _ t).2 ((mem_insertT l t t).mpr (Or.inr rfl)) (fun hm => htl ((hold t).mp hm))
              generalize hD : dropOld S c o (oldTunnels S (insertT l t) o.cs) = D at *
              have hclis : ∀ c', D.clis.get c' = if c = c' then some x else s.clis.get c' := by
                intro c'
                rw [g1 c']
                split
                · rfl
                · rename_i hne; rw [hSc, if_neg hne]
              unfold joined
              have htg : D.tuns.get t = some { tt with ids := o.ids, cs := o.cs } := by rw [htun, hSt]; simp
              simp only [htg]
              refine ⟨h.base.join (x := x) (tt2 := { tt with ids := o.ids, cs := o.cs, clis := insertT tt.clis c, phase := .up })
                hp.hc hp.hl hp.ht hclis ?_ g2 hold' (fun hx => by rw [hx] at htin; simp at htin) ho rfl rfl (fun _ => hnew),
                fun c' => if c' = c then o.ids else own c', ?_, ?_⟩
              · intro t'
                rw [setTun_tuns]
                split
                · rfl
                · rename_i hne
                  rw [htun, hSt, if_neg hne]
              · exact e1.update hp.hc hclis g2 hN g4 g5
              · intro c' cl' l' a b
                rw [show (setTun D t _).clis.get c' = _ from hclis c'] at a
                split at a
                · rename_i he; subst he; simp at a; subst a; simp [ho, g3]
                · rename_i he; simp only [Ne.symm he, if_false]; exact e2 c' cl' l' a b

end Verif.Registry
