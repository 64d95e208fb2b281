import Verif.Registry.Reg
set_option linter.unusedSimpArgs false
set_option linter.unusedVariables false
/-! Structural invariants that hold in every execution. -/
namespace Verif.Registry
open Verif

structure WF (s : Srv) : Prop where
  w1 : ∀ id c, s.id2cli.get id = some c → ∃ cl l, s.clis.get c = some cl ∧ cl.id = id ∧ cl.tunnels = some l
  w2 : ∀ c cl l, s.clis.get c = some cl → cl.tunnels = some l →
    s.id2cli.get cl.id = some c ∧ l.Nodup ∧ l.length ≤ cl.conns
  w3 : ∀ c cl, s.clis.get c = some cl → c < s.nextCli
  w4 : ∀ c cl l t, s.clis.get c = some cl → cl.tunnels = some l → t ∈ l → ∃ tt, s.tuns.get t = some tt

theorem WF.start (m u us a) : WF (start m u us a) := by
  constructor <;> simp [Registry.start]

theorem setTun_tuns (s : Srv) (t t' : Nat) (x : Tun) :
    (setTun s t x).tuns.get t' = if t = t' then some x else s.tuns.get t' := by
  simp [setTun, AMap.get_set]

theorem setCli_clis (s : Srv) (c c' : Nat) (x : Cli) :
    (setCli s c x).clis.get c' = if c = c' then some x else s.clis.get c' := by
  simp [setCli, AMap.get_set]

theorem WF.setTun {s : Srv} (h : WF s) (t : Nat) (x : Tun) : WF (setTun s t x) := by
  refine ⟨h.w1, h.w2, h.w3, ?_⟩
  intro c cl l t' hc hl ht
  rw [setTun_tuns]
  split
  · exact ⟨_, rfl⟩
  · exact h.w4 c cl l t' hc hl ht

theorem WF.reg {s : Srv} (h : WF s) (r) : WF { s with reg := r } := ⟨h.w1, h.w2, h.w3, h.w4⟩
theorem WF.users {s : Srv} (h : WF s) (r) : WF { s with users := r } := ⟨h.w1, h.w2, h.w3, h.w4⟩
theorem WF.api {s : Srv} (h : WF s) (r) : WF { s with apiCreds := r } := ⟨h.w1, h.w2, h.w3, h.w4⟩

/-- Updating a live client without changing its id, limit or liveness. -/
theorem WF.setCli {s : Srv} (h : WF s) (c : Nat) (cl x : Cli) (l l' : List Nat) (hc : s.clis.get c = some cl)
    (hl : cl.tunnels = some l) (hx : x.tunnels = some l') (hid : x.id = cl.id)
    (hn : l'.Nodup) (hlen : l'.length ≤ x.conns) (ht : ∀ t ∈ l', ∃ tt, s.tuns.get t = some tt) : WF (setCli s c x) := by
  refine ⟨?_, ?_, ?_, ?_⟩
  · intro id c' hi
    obtain ⟨cl', l'', a, b, d⟩ := h.w1 id c' hi
    rw [setCli_clis]
    by_cases hcc : c = c'
    · subst hcc
      rw [hc] at a; simp at a; subst a
      exact ⟨x, l', by simp, by rw [hid]; exact b, hx⟩
    · exact ⟨cl', l'', by simp [hcc, a], b, d⟩
  · intro c' cl' l'' a b
    rw [setCli_clis] at a
    by_cases hcc : c = c'
    · subst hcc
      simp only [if_true, Option.some.injEq] at a; subst a
      rw [hx] at b; simp at b; subst b
      refine ⟨?_, hn, hlen⟩
      rw [hid]; exact (h.w2 c cl l hc hl).1
    · simp only [hcc, if_false] at a; exact h.w2 c' cl' l'' a b
  · intro c' cl' a
    rw [setCli_clis] at a
    by_cases hcc : c = c'
    · subst hcc; exact h.w3 c cl hc
    · simp only [hcc, if_false] at a; exact h.w3 c' cl' a
  · intro c' cl' l'' t a b ht'
    rw [setCli_clis] at a
    by_cases hcc : c = c'
    · subst hcc
      simp only [if_true, Option.some.injEq] at a; subst a
      rw [hx] at b; simp at b; subst b
      exact ht t ht'
    · simp only [hcc, if_false] at a; exact h.w4 c' cl' l'' t a b ht'

theorem removeClient_frame (s : Srv) (id : String) : (removeClient s id).id2cli = s.id2cli.del id ∧
    (removeClient s id).clis = s.clis ∧ (removeClient s id).nextCli = s.nextCli ∧ (removeClient s id).reg = s.reg ∧
    (removeClient s id).tuns = s.tuns ∧ (removeClient s id).mode = s.mode ∧ (removeClient s id).apiOn = s.apiOn ∧
    (removeClient s id).tempUser = s.tempUser ∧ (removeClient s id).apiCreds = s.apiCreds := by
  unfold removeClient
  split
  · exact ⟨rfl, rfl, rfl, rfl, rfl, rfl, rfl, rfl, rfl⟩
  · exact ⟨rfl, rfl, rfl, rfl, rfl, rfl, rfl, rfl, rfl⟩
  · exact ⟨rfl, rfl, rfl, rfl, rfl, rfl, rfl, rfl, rfl⟩
  · split
    · split <;> exact ⟨rfl, rfl, rfl, rfl, rfl, rfl, rfl, rfl, rfl⟩
    · exact ⟨rfl, rfl, rfl, rfl, rfl, rfl, rfl, rfl, rfl⟩

/-- The client is removed together with its last tunnel. -/
theorem WF.drop {s : Srv} (h : WF s) (c : Nat) (cl : Cli) (l : List Nat) (hc : s.clis.get c = some cl)
    (hl : cl.tunnels = some l) : WF (removeClient (Registry.setCli s c { cl with tunnels := none }) cl.id) := by
  obtain ⟨e1, e2, e3, _, e5, _⟩ := removeClient_frame (Registry.setCli s c { cl with tunnels := none }) cl.id
  have hme := (h.w2 c cl l hc hl).1
  refine ⟨?_, ?_, ?_, ?_⟩
  · intro id c' hi
    rw [e1] at hi
    rw [AMap.get_del] at hi
    split at hi
    · simp at hi
    · rename_i hid
      obtain ⟨cl', l', a, b, d⟩ := h.w1 id c' hi
      rw [e2, setCli_clis]
      by_cases hcc : c = c'
      · subst hcc
        rw [hc] at a; simp at a; subst a
        exact absurd b hid
      · exact ⟨cl', l', by simp [hcc, a], b, d⟩
  · intro c' cl' l' a b
    rw [e2, setCli_clis] at a
    by_cases hcc : c = c'
    · subst hcc; simp only [if_true, Option.some.injEq] at a; subst a; simp at b
    · simp only [hcc, if_false] at a
      obtain ⟨x, y, z⟩ := h.w2 c' cl' l' a b
      refine ⟨?_, y, z⟩
      rw [e1]
      have : (Registry.setCli s c { cl with tunnels := none }).id2cli = s.id2cli := rfl
      rw [this, AMap.get_del, if_neg]
      · exact x
      · intro hid
        rw [← hid, hme] at x; simp at x; exact hcc x
  · intro c' cl' a
    rw [e2, setCli_clis] at a
    rw [e3]
    by_cases hcc : c = c'
    · subst hcc; exact h.w3 c cl hc
    · simp only [hcc, if_false] at a; exact h.w3 c' cl' a
  · intro c' cl' l' t a b ht
    rw [e2, setCli_clis] at a
    rw [e5]
    by_cases hcc : c = c'
    · subst hcc; simp only [if_true, Option.some.injEq] at a; subst a; simp at b
    · simp only [hcc, if_false] at a; exact h.w4 c' cl' l' t a b ht

theorem WF.removeTunnel {s : Srv} (h : WF s) (c t : Nat) : WF (removeTunnel s c t) := by
  unfold Registry.removeTunnel
  split
  · exact h
  · rename_i cl hc
    split
    · exact h
    · rename_i l hl
      split
      · simp only
        split
        · have := h.drop c cl l hc hl
          split
          · exact this.reg _
          · exact this
        · obtain ⟨_, hn, hlen⟩ := h.w2 c cl l hc hl
          refine h.setCli c cl _ l (l.erase t) hc hl rfl rfl (hn.erase t) ?_ ?_
          · exact Nat.le_trans (List.length_erase_le) hlen
          · intro t' ht'; exact h.w4 c cl l t' hc hl (List.mem_of_mem_erase ht')
      · exact h

theorem WF.foldRemove {s : Srv} (h : WF s) (t : Nat) (cs : List Nat) :
    WF (cs.foldl (fun s c => Registry.removeTunnel s c t) s) := by
  induction cs generalizing s with
  | nil => exact h
  | cons c cs ih => simp only [List.foldl_cons]; exact ih (h.removeTunnel c t)

theorem WF.finish {s : Srv} (h : WF s) (t : Nat) : WF (finish s t) := by
  unfold Registry.finish
  split
  · exact h
  · simp only
    split
    · exact (h.foldRemove t _).setTun t _
    · exact h.foldRemove t _

theorem WF.getOrCreate {s : Srv} (h : WF s) (id : String) (u : User) : WF (getOrCreate s id u).2 := by
  unfold Registry.getOrCreate
  split
  · exact h
  · rename_i hid
    refine ⟨?_, ?_, ?_, ?_⟩
    · intro id' c hi
      simp only [AMap.get_set] at hi ⊢
      split at hi
      · rename_i he; subst he; simp at hi; subst hi
        exact ⟨⟨id, some [], u.conns, u.hasPM, 0, []⟩, [], by simp, rfl, rfl⟩
      · obtain ⟨cl, l, a, b, d⟩ := h.w1 id' c hi
        have : s.nextCli ≠ c := by have := h.w3 c cl a; omega
        exact ⟨cl, l, by simp [this, a], b, d⟩
    · intro c cl l a b
      simp only [AMap.get_set] at a ⊢
      split at a
      · rename_i he; subst he; simp at a; subst a; simp at b; subst b; simp
      · obtain ⟨x, y, z⟩ := h.w2 c cl l a b
        refine ⟨?_, y, z⟩
        rw [if_neg]
        · exact x
        · intro hq; rw [← hq, hid] at x; simp at x
    · intro c cl a
      simp only [AMap.get_set] at a ⊢
      split at a
      · rename_i he; omega
      · have := h.w3 c cl a; omega
    · intro c cl l t a b ht
      simp only [AMap.get_set] at a
      split at a
      · rename_i he; subst he; simp at a; subst a; simp at b; subst b; simp at ht
      · exact h.w4 c cl l t a b ht

theorem insertT_nodup {l : List Nat} (h : l.Nodup) (t : Nat) : (insertT l t).Nodup := by
  unfold insertT
  split
  · exact h
  · rename_i hn
    rw [List.nodup_append]
    exact ⟨h, by simp, by intro a ha b hb; simp at hb; subst hb; rintro rfl; exact hn ha⟩

theorem insertT_len (l : List Nat) (t : Nat) : (insertT l t).length ≤ l.length + 1 := by
  unfold insertT; split <;> simp

theorem mem_insertT (l : List Nat) (t t' : Nat) : t' ∈ insertT l t ↔ t' ∈ l ∨ t' = t := by
  unfold insertT
  split
  · rename_i h; constructor
    · exact Or.inl
    · rintro (h' | rfl) <;> assumption
  · simp

theorem WF.dropOld {s : Srv} (h : WF s) (c : Nat) (o : Options) (ts : List Nat) : WF (dropOld s c o ts) := by
  induction ts generalizing s with
  | nil => exact h
  | cons t ts ih =>
    simp only [Registry.dropOld]
    split
    · rename_i cl tt hc ht
      cases hl : cl.tunnels with
      | none =>
        -- a dead client: nothing about liveness changes
        refine ih (WF.reg ?_ _)
        refine ⟨?_, ?_, ?_, ?_⟩
        · intro id c' hi
          obtain ⟨cl', l'', a, b, d⟩ := h.w1 id c' hi
          rw [setCli_clis]
          by_cases hcc : c = c'
          · subst hcc; rw [hc] at a; simp at a; subst a; rw [hl] at d; simp at d
          · exact ⟨cl', l'', by simp [hcc, a], b, d⟩
        · intro c' cl' l'' a b
          rw [setCli_clis] at a
          by_cases hcc : c = c'
          · subst hcc; simp only [if_true, Option.some.injEq] at a; subst a; simp [hl] at b
          · simp only [hcc, if_false] at a; exact h.w2 c' cl' l'' a b
        · intro c' cl' a
          rw [setCli_clis] at a
          by_cases hcc : c = c'
          · subst hcc; exact h.w3 c cl hc
          · simp only [hcc, if_false] at a; exact h.w3 c' cl' a
        · intro c' cl' l'' t' a b ht'
          rw [setCli_clis] at a
          by_cases hcc : c = c'
          · subst hcc; simp only [if_true, Option.some.injEq] at a; subst a; simp [hl] at b
          · simp only [hcc, if_false] at a; exact h.w4 c' cl' l'' t' a b ht'
      | some l =>
        obtain ⟨_, hn, hlen⟩ := h.w2 c cl l hc hl
        refine ih (WF.reg ?_ _)
        refine h.setCli c cl _ l (l.erase t) hc hl ?_ rfl (hn.erase t) ?_ ?_
        · simp [hl]
        · exact Nat.le_trans (List.length_erase_le) hlen
        · intro t' ht'; exact h.w4 c cl l t' hc hl (List.mem_of_mem_erase ht')
    · exact ih h

theorem WF.addTunnel {s : Srv} (h : WF s) (c t : Nat) (r : Bool) (o : Options) (tcpOk : Bool) :
    WF (addTunnel s c t r o tcpOk).2 := by
  unfold Registry.addTunnel
  split
  · rename_i cl tt hc ht
    split
    · exact h
    · rename_i hlt
      split
      · exact h
      · rename_i l hl
        simp only [hl, Option.getD_some] at hlt
        obtain ⟨_, hn, hlen⟩ := h.w2 c cl l hc hl
        have htt : ∀ t' ∈ insertT l t, ∃ tt, s.tuns.get t' = some tt := by
          intro t' ht'
          rcases (mem_insertT l t t').mp ht' with h' | rfl
          · exact h.w4 c cl l t' hc hl h'
          · exact ⟨tt, ht⟩
        have hins : ∀ x : Cli, x.tunnels = some (insertT l t) → x.id = cl.id → x.conns = cl.conns → WF (Registry.setCli s c x) := by
          intro x hx hid hcn
          refine h.setCli c cl x l (insertT l t) hc hl hx hid (insertT_nodup hn t) ?_ htt
          have := insertT_len l t; rw [hcn]; omega
        split
        · exact h
        · split
          · exact (hins { cl with tunnels := some (insertT l t) } rfl rfl rfl).setTun t _
          · simp only
            have h1 := hins { cl with tunnels := some (insertT l t) } rfl rfl rfl
            split
            · exact h1.reg _
            · rename_i reg hreg
              have h2 := (h1.reg (prune c o.ids tt.ids reg)).setTun t { tt with ids := o.ids, cs := o.cs }
              split
              · exact h2
              · -- second update of the client
                have h3 : WF (Registry.setCli (Registry.setTun { (Registry.setCli s c { cl with tunnels := some (insertT l t) }) with
                      reg := prune c o.ids tt.ids reg } t { tt with ids := o.ids, cs := o.cs }) c
                      { cl with tunnels := some (insertT l t), last := o.cs }) := by
                  refine h2.setCli c { cl with tunnels := some (insertT l t) } _ (insertT l t) (insertT l t) ?_ rfl rfl rfl
                    (insertT_nodup hn t) ?_ ?_
                  · show (Registry.setCli s c _).clis.get c = _
                    rw [setCli_clis]; simp
                  · have := insertT_len l t; show _ ≤ cl.conns; omega
                  · intro t' ht'
                    rw [setTun_tuns]
                    split
                    · exact ⟨_, rfl⟩
                    · exact htt t' ht'
                split
                · exact h3
                · exact h3.dropOld c o _
  · exact h

theorem WF.joinLoop {s : Srv} (h : WF s) (t : Nat) (id : String) (u : User) (r : Bool) (o : Options) (k : Bool)
    (n c : Nat) : WF (joinLoop t id u r o k n c s).2.2 := by
  induction n generalizing s c with
  | zero => exact h
  | succ n ih =>
    simp only [Registry.joinLoop]
    have h1 := h.getOrCreate id u
    have h2 := h1.addTunnel (Registry.getOrCreate s id u).1 t r o k
    split
    · rename_i s' hs'
      rw [hs'] at h2
      exact ih h2 _
    · rename_i r' s' _ hs'
      rw [hs'] at h2
      exact h2

theorem WF.auth {s : Srv} (h : WF s) (id sec : String) (ok : Option Bool) : WF (auth s id sec ok).2 := by
  unfold Registry.auth
  split
  · exact h
  · exact h
  · exact h.users _
  · exact h.users _

theorem WF.step {s : Srv} (h : WF s) (e : Ev) : WF (step s e) := by
  cases e with
  | accept t => simp only [Registry.step]; split <;> first | exact h.setTun _ _ | exact h
  | auth t id sec o ok =>
    simp only [Registry.step]
    split
    · split
      · have := h.auth id sec ok
        split
        · rename_i hh; rw [hh] at this; exact this.setTun _ _
        · rename_i hh; rw [hh] at this; exact this.finish _
      · exact h
    · exact h
  | badOptions t =>
    simp only [Registry.step]
    split
    · split
      · exact h.finish t
      · exact h
    · exact h
  | join t k =>
    simp only [Registry.step]
    split
    · split
      · rename_i tt htt id u o r hp
        have := h.joinLoop t id u r o k 5 0
        split
        · split
          · exact this.setTun _ _
          · exact (this.setTun _ _).finish _
        · exact this
      · exact h
    · exact h
  | close t =>
    simp only [Registry.step]
    split
    · split
      · exact h.finish t
      · exact h
    · exact h
  | expire c =>
    simp only [Registry.step]
    split
    · rename_i cl hc
      cases hl : cl.tunnels with
      | none =>
        refine ⟨?_, ?_, ?_, ?_⟩
        · intro id c' hi
          obtain ⟨cl', l'', a, b, d⟩ := h.w1 id c' hi
          rw [setCli_clis]
          by_cases hcc : c = c'
          · subst hcc; rw [hc] at a; simp at a; subst a; rw [hl] at d; simp at d
          · exact ⟨cl', l'', by simp [hcc, a], b, d⟩
        · intro c' cl' l'' a b
          rw [setCli_clis] at a
          by_cases hcc : c = c'
          · subst hcc; simp only [if_true, Option.some.injEq] at a; subst a; simp [hl] at b
          · simp only [hcc, if_false] at a; exact h.w2 c' cl' l'' a b
        · intro c' cl' a
          rw [setCli_clis] at a
          by_cases hcc : c = c'
          · subst hcc; exact h.w3 c cl hc
          · simp only [hcc, if_false] at a; exact h.w3 c' cl' a
        · intro c' cl' l'' t' a b ht'
          rw [setCli_clis] at a
          by_cases hcc : c = c'
          · subst hcc; simp only [if_true, Option.some.injEq] at a; subst a; simp [hl] at b
          · simp only [hcc, if_false] at a; exact h.w4 c' cl' l'' t' a b ht'
      | some l =>
        obtain ⟨_, hn, hlen⟩ := h.w2 c cl l hc hl
        exact h.setCli c cl _ l l hc hl (by rw [← hl]) rfl hn hlen (fun t' ht' => h.w4 c cl l t' hc hl ht')
    · exact h
  | checkStart id sec => simp only [Registry.step]; split <;> first | exact h.api _ | exact h
  | checkEnd => exact h.api _

theorem WF.run {s : Srv} (h : WF s) (es : List Ev) : WF (run s es) := by
  induction es generalizing s with
  | nil => exact h
  | cons e es ih => exact ih (h.step e)

end Verif.Registry
