import Verif.Registry.Inv
set_option linter.unusedSimpArgs false
set_option linter.unusedVariables false
/-! # C22, C23: who is let in -/
namespace Verif.Registry
open Verif

/-! ## What the steps leave alone -/

/-- Configuration-like fields that only health checks change. -/
structure Same (s s' : Srv) : Prop where
  mode : s'.mode = s.mode
  temp : s'.tempUser = s.tempUser
  on : s'.apiOn = s.apiOn
  creds : s'.apiCreds = s.apiCreds

theorem Same.refl (s : Srv) : Same s s := ⟨rfl, rfl, rfl, rfl⟩
theorem Same.trans {a b c : Srv} (h : Same a b) (k : Same b c) : Same a c :=
  ⟨k.mode.trans h.mode, k.temp.trans h.temp, k.on.trans h.on, k.creds.trans h.creds⟩

theorem removeTunnel_same (s : Srv) (c t : Nat) : Same s (removeTunnel s c t) := by
  unfold removeTunnel
  split
  · exact Same.refl s
  · rename_i cl hc
    split
    · exact Same.refl s
    · split
      · simp only
        obtain ⟨_, _, _, _, _, e6, e7, e8, e9⟩ := removeClient_frame (setCli s c { cl with tunnels := none }) cl.id
        split
        · split <;> exact ⟨e6, e8, e7, e9⟩
        · exact ⟨rfl, rfl, rfl, rfl⟩
      · exact Same.refl s

theorem foldRemove_same (s : Srv) (t : Nat) (cs : List Nat) :
    Same s (cs.foldl (fun s c => removeTunnel s c t) s) := by
  induction cs generalizing s with
  | nil => exact Same.refl s
  | cons c cs ih => simp only [List.foldl_cons]; exact (removeTunnel_same s c t).trans (ih _)

theorem finish_same (s : Srv) (t : Nat) : Same s (finish s t) := by
  unfold finish
  split
  · exact Same.refl s
  · simp only
    have h := fun cs => foldRemove_same s t cs
    split
    · exact (h _).trans ⟨rfl, rfl, rfl, rfl⟩
    · exact h _

/-- Neither the settings nor the users change. -/
def Same' (s s' : Srv) : Prop := Same s s' ∧ s'.users = s.users

theorem Same'.refl (s : Srv) : Same' s s := ⟨Same.refl s, rfl⟩
theorem Same'.trans {a b c : Srv} (h : Same' a b) (k : Same' b c) : Same' a c :=
  ⟨h.1.trans k.1, k.2.trans h.2⟩

theorem setTun_same (s : Srv) (t : Nat) (x : Tun) : Same' s (setTun s t x) := ⟨⟨rfl, rfl, rfl, rfl⟩, rfl⟩
theorem setCli_same (s : Srv) (t : Nat) (x : Cli) : Same' s (setCli s t x) := ⟨⟨rfl, rfl, rfl, rfl⟩, rfl⟩

theorem dropOld_same (s : Srv) (c : Nat) (o : Options) (ts : List Nat) :
    Same' s (dropOld s c o ts) ∧ (dropOld s c o ts).id2cli = s.id2cli := by
  induction ts generalizing s with
  | nil => exact ⟨Same'.refl s, rfl⟩
  | cons t ts ih =>
    simp only [dropOld]
    split
    · rename_i cl tt hc ht
      refine ⟨Same'.trans ?_ (ih _).1, (ih _).2.trans ?_⟩
      · exact ⟨⟨rfl, rfl, rfl, rfl⟩, rfl⟩
      · rfl
    · exact ih s

theorem addTunnel_same (s : Srv) (c t : Nat) (r : Bool) (o : Options) (k : Bool) :
    Same' s (addTunnel s c t r o k).2 ∧ (addTunnel s c t r o k).2.id2cli = s.id2cli := by
  have hr : Same' s s ∧ s.id2cli = s.id2cli := ⟨Same'.refl s, rfl⟩
  unfold addTunnel
  split
  · split
    · exact hr
    · split
      · exact hr
      · split
        · exact hr
        · split
          · exact ⟨⟨⟨rfl, rfl, rfl, rfl⟩, rfl⟩, rfl⟩
          · simp only
            split
            · exact ⟨⟨⟨rfl, rfl, rfl, rfl⟩, rfl⟩, rfl⟩
            · split
              · exact ⟨⟨⟨rfl, rfl, rfl, rfl⟩, rfl⟩, rfl⟩
              · split
                · exact ⟨⟨⟨rfl, rfl, rfl, rfl⟩, rfl⟩, rfl⟩
                · refine ⟨Same'.trans ?_ (dropOld_same _ _ _ _).1, ?_⟩
                  · exact ⟨⟨rfl, rfl, rfl, rfl⟩, rfl⟩
                  · rw [(dropOld_same _ _ _ _).2]; rfl
  · exact hr

theorem getOrCreate_same (s : Srv) (id : String) (u : User) : Same' s (getOrCreate s id u).2 := by
  unfold getOrCreate
  split <;> exact ⟨⟨rfl, rfl, rfl, rfl⟩, rfl⟩

theorem joinLoop_same (t : Nat) (id : String) (u : User) (r : Bool) (o : Options) (k : Bool) (n c : Nat) (s : Srv) :
    Same' s (joinLoop t id u r o k n c s).2.2 := by
  induction n generalizing c s with
  | zero => exact Same'.refl s
  | succ n ih =>
    simp only [joinLoop]
    have h1 := getOrCreate_same s id u
    have h2 := (addTunnel_same (getOrCreate s id u).2 (getOrCreate s id u).1 t r o k).1
    split
    · rename_i s' hs'
      rw [hs'] at h2
      exact h1.trans (h2.trans (ih _ _))
    · rename_i r' s' _ hs'
      rw [hs'] at h2
      exact h1.trans h2

/-! ## Removals and users -/

/-- A user is only forgotten together with its client. -/
def UKeep (id : String) (u : User) (s : Srv) : Prop := s.users.get id = some u ∨ s.id2cli.get id = none

theorem removeClient_users (s : Srv) (id id' : String) :
    (removeClient s id).users.get id' = s.users.get id' ∨ id' = id := by
  unfold removeClient
  split
  · exact Or.inl rfl
  · exact Or.inl rfl
  · simp only [AMap.get_del]; split
    · right; rename_i h; exact h.symm
    · exact Or.inl rfl
  · split
    · split
      · simp only [AMap.get_del]; split
        · right; rename_i h; exact h.symm
        · exact Or.inl rfl
      · exact Or.inl rfl
    · exact Or.inl rfl

theorem removeTunnel_ukeep (s : Srv) (c t : Nat) (id : String) (u : User) (h : UKeep id u s) :
    UKeep id u (removeTunnel s c t) := by
  unfold removeTunnel
  split
  · exact h
  · rename_i cl hc
    split
    · exact h
    · split
      · simp only
        have key : UKeep id u (removeClient (setCli s c { cl with tunnels := none }) cl.id) := by
          obtain ⟨e1, _⟩ := removeClient_frame (setCli s c { cl with tunnels := none }) cl.id
          rcases removeClient_users (setCli s c { cl with tunnels := none }) cl.id id with hu | hu
          · rcases h with h | h
            · left; rw [hu]; exact h
            · right; rw [e1, AMap.get_del]; split
              · rfl
              · exact h
          · right; rw [e1, hu, AMap.get_del_self]
        split
        · split
          · exact key
          · exact key
        · exact h
      · exact h

theorem finish_ukeep (s : Srv) (t : Nat) (id : String) (u : User) (h : UKeep id u s) :
    UKeep id u (finish s t) := by
  unfold finish
  have key : ∀ (cs : List Nat) (s : Srv), UKeep id u s → UKeep id u (cs.foldl (fun s c => removeTunnel s c t) s) := by
    intro cs
    induction cs with
    | nil => exact fun s h => h
    | cons c cs ih => intro s h; exact ih _ (removeTunnel_ukeep s c t id u h)
  split
  · exact h
  · simp only
    split
    · exact key _ s h
    · exact key _ s h

theorem authCreate_users (s : Srv) (id sec id' : String) (u : User) (h : s.users.get id' = some u) :
    (authCreate s id sec).2.get id' = some u := by
  unfold authCreate
  split
  · exact h
  · split
    · exact h
    · rename_i hn
      simp only [AMap.get_set]
      split
      · rename_i he; rw [← he] at h; rw [h] at hn; simp at hn
      · exact h

theorem auth_users (s : Srv) (id sec id' : String) (ok : Option Bool) (u : User) (h : s.users.get id' = some u) :
    (auth s id sec ok).2.users.get id' = some u := by
  unfold auth
  split
  · exact h
  · exact h
  · exact authCreate_users s id sec id' u h
  · exact authCreate_users s id sec id' u h

theorem auth_same (s : Srv) (id sec : String) (ok : Option Bool) :
    Same s (auth s id sec ok).2 ∧ (auth s id sec ok).2.id2cli = s.id2cli := by
  unfold auth; split <;> exact ⟨⟨rfl, rfl, rfl, rfl⟩, rfl⟩

theorem step_ukeep (s : Srv) (e : Ev) (id : String) (u : User) (h : s.users.get id = some u) :
    UKeep id u (step s e) := by
  have h0 : UKeep id u s := Or.inl h
  cases e with
  | accept t => simp only [step]; split <;> exact h0
  | auth t i sec o ok =>
    simp only [step]
    split
    · split
      · have := auth_users s i sec id ok u h
        split
        · rename_i hh; rw [hh] at this; exact Or.inl this
        · rename_i hh; rw [hh] at this; exact finish_ukeep _ _ _ _ (Or.inl this)
      · exact h0
    · exact h0
  | badOptions t =>
    simp only [step]
    split
    · split
      · exact finish_ukeep _ _ _ _ h0
      · exact h0
    · exact h0
  | join t k =>
    simp only [step]
    split
    · split
      · rename_i tt htt i u' o r hp
        have := (joinLoop_same t i u' r o k 5 0 s).2
        have h1 : UKeep id u (joinLoop t i u' r o k 5 0 s).2.2 := Or.inl (by rw [this]; exact h)
        split
        · split
          · exact h1
          · exact finish_ukeep _ _ _ _ h1
        · exact h1
      · exact h0
    · exact h0
  | close t =>
    simp only [step]
    split
    · split
      · exact finish_ukeep _ _ _ _ h0
      · exact h0
    · exact h0
  | expire c => simp only [step]; split <;> exact h0
  | checkStart a b => simp only [step]; split <;> exact h0
  | checkEnd => exact h0

theorem step_settings (s : Srv) (e : Ev) :
    (step s e).mode = s.mode ∧ (step s e).tempUser = s.tempUser ∧ (step s e).apiOn = s.apiOn := by
  cases e with
  | accept t => simp only [step]; split <;> exact ⟨rfl, rfl, rfl⟩
  | auth t i sec o ok =>
    simp only [step]
    split
    · split
      · have h1 := (auth_same s i sec ok).1
        split
        · rename_i hh; rw [hh] at h1; exact ⟨h1.mode, h1.temp, h1.on⟩
        · rename_i s' hh; rw [hh] at h1; have h2 := h1.trans (finish_same s' t); exact ⟨h2.mode, h2.temp, h2.on⟩
      · exact ⟨rfl, rfl, rfl⟩
    · exact ⟨rfl, rfl, rfl⟩
  | badOptions t =>
    simp only [step]
    split
    · split
      · have h := finish_same s t; exact ⟨h.mode, h.temp, h.on⟩
      · exact ⟨rfl, rfl, rfl⟩
    · exact ⟨rfl, rfl, rfl⟩
  | join t k =>
    simp only [step]
    split
    · split
      · rename_i tt htt i u' o r hp
        have h := (joinLoop_same t i u' r o k 5 0 s).1
        split
        · split
          · exact ⟨h.mode, h.temp, h.on⟩
          · rename_i x _ _
            have h2 := (h.trans (setTun_same _ t { x with clis := insertT x.clis (joinLoop t i u' r o k 5 0 s).1, phase := .up }).1).trans (finish_same _ t)
            exact ⟨h2.mode, h2.temp, h2.on⟩
        · exact ⟨h.mode, h.temp, h.on⟩
      · exact ⟨rfl, rfl, rfl⟩
    · exact ⟨rfl, rfl, rfl⟩
  | close t =>
    simp only [step]
    split
    · split
      · have h := finish_same s t; exact ⟨h.mode, h.temp, h.on⟩
      · exact ⟨rfl, rfl, rfl⟩
    · exact ⟨rfl, rfl, rfl⟩
  | expire c => simp only [step]; split <;> exact ⟨rfl, rfl, rfl⟩
  | checkStart a b => simp only [step]; split <;> exact ⟨rfl, rfl, rfl⟩
  | checkEnd => exact ⟨rfl, rfl, rfl⟩

/-- Anything about settings and users that removing a client and authenticating preserve is preserved by
every event but the health check's. -/
theorem step_inv (P : Srv → Prop) (hf : ∀ s s', Same' s s' → P s → P s') (hr : ∀ s id, P s → P (removeClient s id))
    (ha : ∀ s id sec ok, P s → P (auth s id sec ok).2) (s : Srv) (e : Ev)
    (hc : ∀ i c, e ≠ .checkStart i c) (hc' : e ≠ .checkEnd) (h : P s) : P (step s e) := by
  have hrt : ∀ (s : Srv) (c t : Nat), P s → P (removeTunnel s c t) := by
    intro s c t h
    unfold removeTunnel
    split
    · exact h
    · rename_i cl _
      split
      · exact h
      · split
        · simp only
          have key : P (removeClient (setCli s c { cl with tunnels := none }) cl.id) :=
            hr _ _ (hf _ _ (setCli_same s c _) h)
          split
          · split
            · refine hf _ _ ?_ key
              exact ⟨⟨rfl, rfl, rfl, rfl⟩, rfl⟩
            · exact key
          · exact hf _ _ (setCli_same s c _) h
        · exact h
  have hfold : ∀ (t : Nat) (cs : List Nat) (s : Srv), P s → P (cs.foldl (fun s c => removeTunnel s c t) s) := by
    intro t cs
    induction cs with
    | nil => exact fun s h => h
    | cons c cs ih => intro s h; exact ih _ (hrt s c t h)
  have hfin : ∀ (s : Srv) (t : Nat), P s → P (finish s t) := by
    intro s t h
    unfold finish
    split
    · exact h
    · simp only
      split
      · exact hf _ _ (setTun_same _ t _) (hfold t _ s h)
      · exact hfold t _ s h
  cases e with
  | accept t =>
    simp only [step]; split
    · exact hf _ _ (setTun_same s t _) h
    · exact h
  | auth t i sec o ok =>
    simp only [step]
    split
    · split
      · have := ha s i sec ok h
        split
        · rename_i hh; rw [hh] at this; exact hf _ _ (setTun_same _ t _) this
        · rename_i hh; rw [hh] at this; exact hfin _ t this
      · exact h
    · exact h
  | badOptions t =>
    simp only [step]
    split
    · split
      · exact hfin s t h
      · exact h
    · exact h
  | join t k =>
    simp only [step]
    split
    · split
      · rename_i tt htt i u' o r hp
        have := hf _ _ (joinLoop_same t i u' r o k 5 0 s) h
        split
        · split
          · exact hf _ _ (setTun_same _ t _) this
          · exact hfin _ t (hf _ _ (setTun_same _ t _) this)
        · exact this
      · exact h
    · exact h
  | close t =>
    simp only [step]
    split
    · split
      · exact hfin s t h
      · exact h
    · exact h
  | expire c =>
    simp only [step]; split
    · exact hf _ _ (setCli_same s c _) h
    · exact h
  | checkStart a b => exact absurd rfl (hc a b)
  | checkEnd => exact absurd rfl hc'

theorem step_check (s : Srv) (e : Ev) (h : (∃ i c, e = .checkStart i c) ∨ e = .checkEnd) :
    (step s e).users = s.users ∧ (step s e).mode = s.mode ∧ (step s e).apiOn = s.apiOn ∧ (step s e).tempUser = s.tempUser := by
  rcases h with ⟨i, c, rfl⟩ | rfl
  · simp only [step]; split <;> exact ⟨rfl, rfl, rfl, rfl⟩
  · exact ⟨rfl, rfl, rfl, rfl⟩

theorem check_cases (e : Ev) : ((∃ i c, e = .checkStart i c) ∨ e = .checkEnd) ∨
    ((∀ i c, e ≠ .checkStart i c) ∧ e ≠ .checkEnd) := by
  cases e <;> simp

theorem step_creds (s : Srv) (e : Ev) (hc : ∀ i c, e ≠ .checkStart i c) (hc' : e ≠ .checkEnd) :
    (step s e).apiCreds = s.apiCreds := by
  refine step_inv (fun s' => s'.apiCreds = s.apiCreds) ?_ ?_ ?_ s e hc hc' rfl
  · intro a b hab h; rw [hab.1.creds]; exact h
  · intro a id h; rw [(removeClient_frame a id).2.2.2.2.2.2.2.2]; exact h
  · intro a id sec ok h; rw [(auth_same a id sec ok).1.creds]; exact h

/-- With a configured table and no user creation the table never changes. -/
theorem step_users_fixed (s : Srv) (e : Ev) (hm : s.mode = .config ∨ s.mode = .api) : (step s e).users = s.users := by
  rcases check_cases e with h | ⟨h1, h2⟩
  · exact (step_check s e h).1
  · have := step_inv (fun s' => s'.users = s.users ∧ s'.mode = s.mode) ?_ ?_ ?_ s e h1 h2 ⟨rfl, rfl⟩
    · exact this.1
    · intro a b hab h; rw [hab.2, hab.1.mode]; exact h
    · intro a id h
      refine ⟨?_, by rw [(removeClient_frame a id).2.2.2.2.2.1]; exact h.2⟩
      unfold removeClient
      rcases hm with hm | hm <;> rw [h.2, hm] <;> exact h.1
    · intro a id sec ok h
      refine ⟨?_, by rw [(auth_same a id sec ok).1.mode]; exact h.2⟩
      unfold auth
      rcases hm with hm | hm <;> rw [h.2, hm] <;> exact h.1

/-- A configured user is never forgotten. -/
theorem step_user_configured (s : Srv) (e : Ev) (id : String) (u : User) (hm : s.mode = .anyWithUsers)
    (hu : s.users.get id = some u) (ht : u.temp = false) : (step s e).users.get id = some u := by
  rcases check_cases e with h | ⟨h1, h2⟩
  · rw [(step_check s e h).1]; exact hu
  · have := step_inv (fun s' => s'.users.get id = some u ∧ s'.mode = .anyWithUsers) ?_ ?_ ?_ s e h1 h2 ⟨hu, hm⟩
    · exact this.1
    · intro a b hab h; rw [hab.2, hab.1.mode]; exact h
    · intro a id' h
      refine ⟨?_, by rw [(removeClient_frame a id').2.2.2.2.2.1]; exact h.2⟩
      unfold removeClient
      rw [h.2]
      simp only
      split
      · rename_i u' hu'
        split
        · simp only [AMap.get_del]
          split
          · rename_i hx he
            rw [he, h.1] at hu'; simp at hu'; subst hu'; rw [ht] at hx; simp at hx
          · exact h.1
        · exact h.1
      · exact h.1
    · intro a id' sec ok h
      exact ⟨auth_users a id' sec id ok u h.1, by rw [(auth_same a id' sec ok).1.mode]; exact h.2⟩

end Verif.Registry
