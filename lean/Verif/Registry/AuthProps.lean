import Verif.Registry.Auth
set_option linter.unusedSimpArgs false
set_option linter.unusedVariables false
/-! # C22, C23: theorems -/
namespace Verif.Registry
open Verif

/-! ## Specification -/

/-- The server, in state `s`, would let a tunnel in that presents `id` and `sec`. -/
def Accepts (s : Srv) (id sec : String) (ans : Option Bool) : Prop := (auth s id sec ans).1.isSome = true

/-- The credentials of the health check in progress after a history. -/
def checkOf (es : List Ev) : Option (String × String) :=
  es.foldl (fun r e => match e with
    | .checkStart i c => some (i, c)
    | .checkEnd => none
    | _ => r) none

/-- A tunnel that authenticated as `id` is among the live tunnels of the client `id`. -/
def Live (s : Srv) (id : String) (t : Nat) : Prop :=
  ∃ c cl l, s.clis.get c = some cl ∧ cl.id = id ∧ cl.tunnels = some l ∧ t ∈ l

/-- The id has a client. -/
def Registered (s : Srv) (id : String) : Prop := s.id2cli.get id ≠ none

/-! ## Histories -/

theorem run_append (s : Srv) (es fs : List Ev) : run s (es ++ fs) = run (run s es) fs := by
  induction es generalizing s with
  | nil => rfl
  | cons e es ih => exact ih _

theorem run_settings (s : Srv) (es : List Ev) :
    (run s es).mode = s.mode ∧ (run s es).tempUser = s.tempUser ∧ (run s es).apiOn = s.apiOn := by
  induction es generalizing s with
  | nil => exact ⟨rfl, rfl, rfl⟩
  | cons e es ih =>
    obtain ⟨a, b, c⟩ := step_settings s e
    obtain ⟨a', b', c'⟩ := ih (step s e)
    exact ⟨a'.trans a, b'.trans b, c'.trans c⟩

theorem run_creds (s : Srv) (es : List Ev) (hon : s.apiOn = true) (r : Option (String × String))
    (hr : s.apiCreds = r.getD ("", "")) :
    (run s es).apiCreds = (es.foldl (fun r e => match e with
      | .checkStart i c => some (i, c)
      | .checkEnd => none
      | _ => r) r).getD ("", "") := by
  induction es generalizing s r with
  | nil => exact hr
  | cons e es ih =>
    simp only [run, List.foldl_cons]
    refine ih (step s e) ?_ _ ?_
    · rw [(step_settings s e).2.2]; exact hon
    · cases e with
      | checkStart i c => simp [step, hon]
      | checkEnd => simp [step]
      | accept t => simp only; rw [step_creds _ _ (by simp) (by simp)]; exact hr
      | auth t i x o k => simp only; rw [step_creds _ _ (by simp) (by simp)]; exact hr
      | badOptions t => simp only; rw [step_creds _ _ (by simp) (by simp)]; exact hr
      | join t k => simp only; rw [step_creds _ _ (by simp) (by simp)]; exact hr
      | close t => simp only; rw [step_creds _ _ (by simp) (by simp)]; exact hr
      | expire t => simp only; rw [step_creds _ _ (by simp) (by simp)]; exact hr

theorem creds_are_check (m : Mode) (tu : User) (us : AMap String User) (es : List Ev) :
    (run (start m tu us true) es).apiCreds = (checkOf es).getD ("", "") :=
  run_creds (start m tu us true) es rfl none rfl

theorem length_lt_one (x : String) : x.length < 1 ↔ x = "" := by
  rw [show x.length < 1 ↔ x.length = 0 by omega]
  exact String.length_eq_zero_iff

/-- Health-check credentials match exactly those of the check in progress (or, outside a check, two empty
strings). -/
theorem apiAuth_iff (m : Mode) (tu : User) (us : AMap String User) (a : Bool) (es : List Ev) (id sec : String) :
    apiAuth (run (start m tu us a) es) id sec = true ↔ a = true ∧ (checkOf es).getD ("", "") = (id, sec) := by
  have hon : (run (start m tu us a) es).apiOn = a := (run_settings _ es).2.2
  unfold apiAuth
  rw [hon]
  cases a with
  | false => simp
  | true =>
    rw [creds_are_check]
    simp only [Bool.true_and, Bool.and_eq_true, decide_eq_true_eq, true_and, Prod.ext_iff]
    constructor
    · rintro ⟨h, k⟩; exact ⟨h.symm, k.symm⟩
    · rintro ⟨h, k⟩; exact ⟨h.symm, k.symm⟩

theorem users_fixed (s : Srv) (es : List Ev) (hm : s.mode = .config ∨ s.mode = .api) : (run s es).users = s.users := by
  induction es generalizing s with
  | nil => rfl
  | cons e es ih =>
    simp only [run]
    rw [ih _ (by rw [(step_settings s e).1]; exact hm), step_users_fixed s e hm]

/-! ## C22 -/

/-- C22, configured users: after any history, a tunnel is let in exactly if it presents a configured id with
the configured secret, or the credentials of the health check in progress. -/
theorem config_mode_accepts_iff (tu : User) (us : AMap String User) (a : Bool) (es : List Ev) (id sec : String)
    (ans : Option Bool) :
    Accepts (run (start .config tu us a) es) id sec ans ↔
      id ≠ "" ∧ sec ≠ "" ∧
        ((∃ u, us.get id = some u ∧ u.secret = sec) ∨ (a = true ∧ checkOf es = some (id, sec))) := by
  have hm : (run (start .config tu us a) es).mode = .config := (run_settings _ es).1
  have hu : (run (start .config tu us a) es).users = us := users_fixed _ es (Or.inl rfl)
  have hapi := apiAuth_iff .config tu us a es id sec
  unfold Accepts auth
  rw [hm]
  simp only [authConfig, usersAuth, hu, length_lt_one]
  by_cases h1 : id = ""
  · simp [h1]
  by_cases h2 : sec = ""
  · simp [h2]
  simp only [h1, h2, or_self, if_false, ne_eq, not_false_eq_true, true_and]
  have hck : (checkOf es).getD ("", "") = (id, sec) ↔ checkOf es = some (id, sec) := by
    cases checkOf es with
    | none => simp; intro h; exact absurd h.symm (fun hh => h1 hh.symm)
    | some x => simp
  rw [hck] at hapi
  rw [← hapi]
  cases hg : us.get id with
  | none => simp
  | some u =>
    by_cases hs : u.secret = sec
    · simp [hs]
    · simp [hs]

/-- C22, with user creation allowed beside configured users: a configured id is let in exactly with its
configured secret, or by the health check. -/
theorem configured_user_keeps_secret (tu : User) (us : AMap String User) (a : Bool) (es : List Ev) (id sec : String)
    (ans : Option Bool) (u : User) (hu : us.get id = some u) (ht : u.temp = false) :
    Accepts (run (start .anyWithUsers tu us a) es) id sec ans ↔
      sec = u.secret ∨ (a = true ∧ (checkOf es).getD ("", "") = (id, sec)) := by
  have key : ∀ (es : List Ev) (s : Srv), s.mode = .anyWithUsers → s.users.get id = some u → (run s es).users.get id = some u := by
    intro es
    induction es with
    | nil => exact fun s _ h => h
    | cons e es ih =>
      intro s hm h
      exact ih _ (by rw [(step_settings s e).1]; exact hm) (step_user_configured s e id u hm h ht)
  have hm : (run (start .anyWithUsers tu us a) es).mode = .anyWithUsers := (run_settings _ es).1
  have hk := key es (start .anyWithUsers tu us a) rfl hu
  rw [← apiAuth_iff .anyWithUsers tu us a es id sec]
  unfold Accepts auth
  rw [hm]
  simp only [authCreate, hk]
  split
  · simp_all
  · rename_i hn
    simp only [Bool.not_eq_true] at hn
    simp only [hn, Bool.false_eq_true, or_false]
    by_cases hs : u.secret = sec
    · simp [hs]
    · simp [hs, Ne.symm hs]

/-- The id keeps its client through the events: no event takes it from registered to unregistered, and
whoever joins under it stays at least until the next event. -/
def NoLeave (id : String) : Srv → List Ev → Prop
  | _, [] => True
  | s, e :: es =>
    (Registered s id → Registered (step s e) id) ∧
    (∀ t k, e = .join t k → (∃ tt u o r, s.tuns.get t = some tt ∧ tt.phase = .authed id u o r) → Registered (step s e) id) ∧
    NoLeave id (step s e) es

/-- The client called `id` exists exactly while registered. -/
theorem not_removed {s : Srv} (h : WF s) (id : String) (hn : ¬ Registered s id) (c : Nat) (cl : Cli) (l : List Nat)
    (hc : s.clis.get c = some cl) (hl : cl.tunnels = some l) : cl.id ≠ id := by
  intro he
  exact hn (by unfold Registered; rw [← he, (h.w2 c cl l hc hl).1]; simp)

theorem removeTunnel_users_of_unreg {s : Srv} (h : WF s) (id : String) (hn : ¬ Registered s id) (c t : Nat) :
    (removeTunnel s c t).users.get id = s.users.get id ∧ ¬ Registered (removeTunnel s c t) id := by
  unfold removeTunnel
  split
  · exact ⟨rfl, hn⟩
  · rename_i cl hc
    split
    · exact ⟨rfl, hn⟩
    · rename_i l hl
      split
      · simp only
        have hne := not_removed h id hn c cl l hc hl
        have key : (removeClient (setCli s c { cl with tunnels := none }) cl.id).users.get id = s.users.get id ∧
            ¬ Registered (removeClient (setCli s c { cl with tunnels := none }) cl.id) id := by
          constructor
          · rcases removeClient_users (setCli s c { cl with tunnels := none }) cl.id id with hu | hu
            · exact hu
            · exact absurd hu.symm hne
          · unfold Registered
            rw [(removeClient_frame _ _).1, AMap.get_del, if_neg hne]
            exact hn
        split
        · split
          · exact key
          · exact key
        · exact ⟨rfl, hn⟩
      · exact ⟨rfl, hn⟩

theorem finish_users_of_unreg {s : Srv} (h : WF s) (id : String) (hn : ¬ Registered s id) (t : Nat) :
    (finish s t).users.get id = s.users.get id ∧ ¬ Registered (finish s t) id := by
  have key : ∀ (cs : List Nat) (s : Srv), WF s → ¬ Registered s id →
      (cs.foldl (fun s c => removeTunnel s c t) s).users.get id = s.users.get id ∧
      ¬ Registered (cs.foldl (fun s c => removeTunnel s c t) s) id := by
    intro cs
    induction cs with
    | nil => exact fun s _ hn => ⟨rfl, hn⟩
    | cons c cs ih =>
      intro s h hn
      obtain ⟨a, b⟩ := removeTunnel_users_of_unreg h id hn c t
      obtain ⟨a', b'⟩ := ih _ (h.removeTunnel c t) b
      exact ⟨a'.trans a, b'⟩
  unfold finish
  split
  · exact ⟨rfl, hn⟩
  · simp only
    split
    · exact key _ s h hn
    · exact key _ s h hn

theorem getOrCreate_reg (s : Srv) (id : String) (u : User) (id' : String) (hne : id ≠ id') :
    (getOrCreate s id u).2.id2cli.get id' = s.id2cli.get id' := by
  unfold getOrCreate
  split
  · rfl
  · simp only [AMap.get_set, if_neg hne]

theorem joinLoop_reg (t : Nat) (id : String) (u : User) (r : Bool) (o : Options) (k : Bool) (id' : String) (hne : id ≠ id')
    (n c : Nat) (s : Srv) : (joinLoop t id u r o k n c s).2.2.id2cli.get id' = s.id2cli.get id' := by
  induction n generalizing c s with
  | zero => rfl
  | succ n ih =>
    simp only [joinLoop]
    have h1 := getOrCreate_reg s id u id' hne
    have h2 := (addTunnel_same (getOrCreate s id u).2 (getOrCreate s id u).1 t r o k).2
    split
    · rename_i s' hs'
      rw [hs'] at h2
      rw [ih, h2, h1]
    · rename_i r' s' _ hs'
      rw [hs'] at h2
      rw [h2, h1]

/-- While nobody is registered under the id, events other than a join under it keep a user of that name. -/
theorem step_users_of_unreg {s : Srv} (h : WF s) (id : String) (hn : ¬ Registered s id) (u : User)
    (hu : s.users.get id = some u) (e : Ev)
    (hj : ∀ t k, e = .join t k → ¬ ∃ tt u o r, s.tuns.get t = some tt ∧ tt.phase = .authed id u o r) :
    (step s e).users.get id = some u := by
  cases e with
  | accept t => simp only [step]; split <;> exact hu
  | auth t i sec o ok =>
    simp only [step]
    split
    · split
      · have := auth_users s i sec id ok u hu
        have h2 := (auth_same s i sec ok).2
        have h3 := h.auth i sec ok
        split
        · rename_i hh; rw [hh] at this; exact this
        · rename_i s' hh; rw [hh] at this h2 h3
          have hn' : ¬ Registered s' id := by unfold Registered; rw [h2]; exact hn
          rw [(finish_users_of_unreg h3 id hn' t).1]; exact this
      · exact hu
    · exact hu
  | badOptions t =>
    simp only [step]
    split
    · split
      · rw [(finish_users_of_unreg h id hn t).1]; exact hu
      · exact hu
    · exact hu
  | join t k =>
    simp only [step]
    split
    · split
      · rename_i tt htt _ i u' o r hp
        have hne : i ≠ id := by
          rintro rfl
          exact hj t k rfl ⟨tt, u', o, r, htt, hp⟩
        have h1 := (joinLoop_same t i u' r o k 5 0 s).2
        have h2 := joinLoop_reg t i u' r o k id hne 5 0 s
        have h3 := h.joinLoop t i u' r o k 5 0
        split
        · rename_i x hx
          split
          · show (joinLoop t i u' r o k 5 0 s).2.2.users.get id = _
            rw [h1]; exact hu
          · have hn' : ¬ Registered (setTun (joinLoop t i u' r o k 5 0 s).2.2 t
                { x with clis := insertT x.clis (joinLoop t i u' r o k 5 0 s).1, phase := .up }) id := by
              show ¬ (joinLoop t i u' r o k 5 0 s).2.2.id2cli.get id ≠ none
              rw [h2]; exact hn
            rw [(finish_users_of_unreg (h3.setTun t _) id hn' t).1]
            show (joinLoop t i u' r o k 5 0 s).2.2.users.get id = _
            rw [h1]; exact hu
        · rw [h1]; exact hu
      · exact hu
    · exact hu
  | close t =>
    simp only [step]
    split
    · split
      · rw [(finish_users_of_unreg h id hn t).1]; exact hu
      · exact hu
    · exact hu
  | expire c => simp only [step]; split <;> exact hu
  | checkStart a b => simp only [step]; split <;> exact hu
  | checkEnd => exact hu

theorem step_users_noleave {s : Srv} (h : WF s) (id : String) (u : User) (hu : s.users.get id = some u) (e : Ev)
    (h1 : Registered s id → Registered (step s e) id)
    (h2 : ∀ t k, e = .join t k → (∃ tt u o r, s.tuns.get t = some tt ∧ tt.phase = .authed id u o r) → Registered (step s e) id) :
    (step s e).users.get id = some u := by
  have hcase := step_ukeep s e id u hu
  by_cases hreg : Registered (step s e) id
  · rcases hcase with hk | hk
    · exact hk
    · exact absurd hk hreg
  · refine step_users_of_unreg h id (fun hr => hreg (h1 hr)) u hu e ?_
    intro t k he hex
    exact hreg (h2 t k he hex)

/-- C22, user creation (partial): once a free id was claimed with a secret, and as long as the id's last
tunnel does not leave afterwards, exactly that secret is accepted for it (and the health check's).

Missing for the full claim: the histories excluded by `NoLeave`, for which the claim is false
(`created_secret_race`). -/
theorem created_secret_holds_partial (m : Mode) (hm : m = .anyNoUsers ∨ m = .anyWithUsers) (tu : User)
    (us : AMap String User) (es fs : List Ev) (t : Nat) (id sec : String) (o : Options) (ans : Option Bool) (tt : Tun)
    (hfree : (run (start m tu us false) es).users.get id = none)
    (ht : (run (start m tu us false) es).tuns.get t = some tt) (hp : tt.phase = .fresh)
    (hk : NoLeave id (run (start m tu us false) (es ++ [.auth t id sec o ans])) fs)
    (sec' : String) (ans' : Option Bool) :
    Accepts (run (start m tu us false) (es ++ .auth t id sec o ans :: fs)) id sec' ans' ↔ sec' = sec := by
  have hwf : WF (run (start m tu us false) es) := (WF.start m tu us false).run es
  rw [show es ++ .auth t id sec o ans :: fs = (es ++ [.auth t id sec o ans]) ++ fs by simp, run_append]
  rw [run_append] at hk ⊢
  generalize hs0 : run (start m tu us false) es = s0 at *
  have hmode : s0.mode = m := by rw [← hs0]; exact (run_settings _ es).1
  have hon : s0.apiOn = false := by rw [← hs0]; exact (run_settings _ es).2.2
  have hsec : ∃ u, (run s0 [.auth t id sec o ans]).users.get id = some u ∧ u.secret = sec := by
    have hapi : apiAuth s0 id sec = false := by simp [apiAuth, hon]
    refine ⟨{ s0.tempUser with secret := sec, temp := true }, ?_, rfl⟩
    have hauth : auth s0 id sec ans = (some { s0.tempUser with secret := sec, temp := true },
        { s0 with users := s0.users.set id { s0.tempUser with secret := sec, temp := true } }) := by
      unfold auth
      rcases hm with hm | hm <;> rw [hmode, hm] <;> simp [authCreate, hapi, hfree]
    simp only [run, step, ht, hp, hauth, true_or, if_true]
    show (s0.users.set id _).get id = _
    simp
  obtain ⟨u, hu, hus⟩ := hsec
  have hwf1 : WF (run s0 [.auth t id sec o ans]) := hwf.run _
  have hmode1 : (run s0 [.auth t id sec o ans]).mode = m := by rw [(run_settings _ _).1]; exact hmode
  have hon1 : (run s0 [.auth t id sec o ans]).apiOn = false := by rw [(run_settings _ _).2.2]; exact hon
  generalize run s0 [.auth t id sec o ans] = s1 at *
  have key : ∀ (fs : List Ev) (s : Srv), WF s → NoLeave id s fs → s.users.get id = some u → (run s fs).users.get id = some u := by
    intro fs
    induction fs with
    | nil => exact fun s _ _ h => h
    | cons e fs ih =>
      intro s hw hk h
      exact ih _ (hw.step e) hk.2.2 (step_users_noleave hw id u h e hk.1 hk.2.1)
  have hfin := key fs s1 hwf1 hk hu
  have hmf : (run s1 fs).mode = m := by rw [(run_settings _ _).1]; exact hmode1
  have honf : (run s1 fs).apiOn = false := by rw [(run_settings _ _).2.2]; exact hon1
  have : Accepts (run s1 fs) id sec' ans' ↔ u.secret = sec' := by
    have hapi : apiAuth (run s1 fs) id sec' = false := by simp [apiAuth, honf]
    unfold Accepts auth
    rcases hm with hm | hm <;> rw [hmf, hm] <;> simp only [authCreate, hapi, hfin] <;>
      by_cases hs : u.secret = sec' <;> simp [hs]
  rw [this, hus]
  exact ⟨Eq.symm, Eq.symm⟩

def exUser : User := ⟨"", false, 3, false⟩
def exOpts : Options := ⟨[("a", ⟨0, false⟩)], 1, 0⟩

/-- A sufficient check: the id is registered after each event. -/
def allReg (id : String) : Srv → List Ev → Bool
  | _, [] => true
  | s, e :: es => (step s e).id2cli.get id ≠ none && allReg id (step s e) es

theorem noLeave_of_allReg (id : String) (s : Srv) (es : List Ev) (h : allReg id s es = true) : NoLeave id s es := by
  induction es generalizing s with
  | nil => trivial
  | cons e es ih =>
    simp only [allReg, Bool.and_eq_true, decide_eq_true_eq] at h
    exact ⟨fun _ => h.1, fun _ _ _ _ => h.1, ih _ h.2⟩

/-- A user whose tunnels come up and stay. -/
example :
    let es : List Ev := [.accept 1]
    let fs : List Ev := [.join 1 true, .accept 2, .auth 2 "alice" "wrong" exOpts none, .auth 2 "alice" "s1" exOpts none,
      .accept 3, .auth 3 "alice" "s1" exOpts none, .join 3 true, .close 1]
    (run (start .anyNoUsers exUser [] false) es).users.get "alice" = none ∧
    (run (start .anyNoUsers exUser [] false) es).tuns.get 1 = some ⟨[], 0, .fresh, []⟩ ∧
    NoLeave "alice" (run (start .anyNoUsers exUser [] false) (es ++ [.auth 1 "alice" "s1" exOpts none])) fs ∧
    Registered (run (start .anyNoUsers exUser [] false) (es ++ .auth 1 "alice" "s1" exOpts none :: fs)) "alice" := by
  refine ⟨by decide +kernel, by decide +kernel, ?_, by unfold Registered; decide +kernel⟩
  exact noLeave_of_allReg _ _ _ (by decide +kernel)

/-- The race that breaks the claim in general: tunnel 2 authenticates with `s1`; before it joins, tunnel 1,
the last tunnel of the id, leaves and the user is forgotten; tunnel 3 then claims the id with `s2`. Both are
live, with different secrets, and `s1` is refused although tunnel 2 is live. -/
theorem created_secret_race :
    let es : List Ev := [.accept 1, .auth 1 "alice" "s1" exOpts none, .join 1 true,
      .accept 2, .auth 2 "alice" "s1" exOpts none, .close 1, .join 2 true,
      .accept 3, .auth 3 "alice" "s2" exOpts none, .join 3 true]
    let s := run (start .anyNoUsers exUser [] false) es
    Live s "alice" 2 ∧ Live s "alice" 3 ∧ ¬ Accepts s "alice" "s1" none ∧ Accepts s "alice" "s2" none := by
  refine ⟨⟨1, ⟨"alice", some [2, 3], 3, false, 1, []⟩, [2, 3], by decide +kernel, rfl, rfl, by simp⟩,
    ⟨1, ⟨"alice", some [2, 3], 3, false, 1, []⟩, [2, 3], by decide +kernel, rfl, rfl, by simp⟩, ?_, ?_⟩ <;>
    unfold Accepts <;> decide +kernel

/-- A second gap: when the options of the first tunnel do not parse, the id stays taken by a secret of which
no tunnel was ever live. -/
theorem created_user_leaks :
    let es : List Ev := [.accept 1, .auth 1 "alice" "s1" exOpts none, .badOptions 1]
    let s := run (start .anyNoUsers exUser [] false) es
    (∀ t, ¬ Live s "alice" t) ∧ ¬ Accepts s "alice" "s2" none := by
  refine ⟨?_, by unfold Accepts; decide +kernel⟩
  rintro t ⟨c, cl, l, hc, _⟩
  have : (run (start .anyNoUsers exUser [] false)
    [.accept 1, .auth 1 "alice" "s1" exOpts none, .badOptions 1]).clis = [] := by decide +kernel
  rw [this] at hc; simp at hc

/-! ## C23 -/

/-- C23, configured users: an id that is not configured is let in only while a health check is in progress,
with exactly the credentials of that check, and never as an empty id or secret.
Missing from the claim: the same in creation mode, which is false (`empty_credentials_accepted`). -/
theorem health_credentials_only_during_check_partial (tu : User) (us : AMap String User) (a : Bool) (es : List Ev)
    (id sec : String) (ans : Option Bool) (hid : us.get id = none)
    (h : Accepts (run (start .config tu us a) es) id sec ans) :
    checkOf es = some (id, sec) ∧ id ≠ "" ∧ sec ≠ "" := by
  rw [config_mode_accepts_iff] at h
  obtain ⟨h1, h2, h3⟩ := h
  rcases h3 with ⟨u, hu, _⟩ | ⟨_, h3⟩
  · rw [hid] at hu; simp at hu
  · exact ⟨h3, h1, h2⟩

example : Accepts (run (start .config exUser [("bob", exUser)] true) [.checkStart "x" "y"]) "x" "y" none ∧
    ¬ Accepts (run (start .config exUser [("bob", exUser)] true) [.checkStart "x" "y", .checkEnd]) "x" "y" none := by
  unfold Accepts; exact ⟨by decide +kernel, by decide +kernel⟩

/-- C23, external service: refused credentials are let in only while a health check with them is in
progress. -/
theorem health_credentials_external (tu : User) (us : AMap String User) (a : Bool) (es : List Ev)
    (id sec : String) (h : Accepts (run (start .api tu us a) es) id sec (some false)) :
    checkOf es = some (id, sec) ∧ id ≠ "" ∧ sec ≠ "" := by
  have hm : (run (start .api tu us a) es).mode = .api := (run_settings _ es).1
  have hapi := apiAuth_iff .api tu us a es id sec
  unfold Accepts auth at h
  rw [hm] at h
  simp only [authApi, length_lt_one] at h
  by_cases h1 : id = ""
  · simp [h1] at h
  by_cases h2 : sec = ""
  · simp [h2] at h
  simp only [h1, h2, or_self, if_false] at h
  split at h
  · rename_i hx
    have := (hapi.mp hx).2
    refine ⟨?_, h1, h2⟩
    cases hc : checkOf es with
    | none => rw [hc] at this; simp at this; exact absurd this.1.symm (fun hh => h1 hh.symm)
    | some x => rw [hc] at this; simp at this; rw [this]
  · simp at h

/-- C23 fails with user creation: outside every check, the empty id with the empty secret is let in, and is
given the health check's rights, without becoming a user. -/
theorem empty_credentials_accepted (tu : User) (us : AMap String User) (m : Mode)
    (hm : m = .anyNoUsers ∨ m = .anyWithUsers) (es : List Ev) (hc : checkOf es = none) (ans : Option Bool) :
    Accepts (run (start m tu us true) es) "" "" ans := by
  have hmode : (run (start m tu us true) es).mode = m := (run_settings _ es).1
  have hapi := (apiAuth_iff m tu us true es "" "").mpr ⟨rfl, by rw [hc]; rfl⟩
  unfold Accepts auth
  rcases hm with rfl | rfl <;> rw [hmode] <;> simp [authCreate, hapi]

example : checkOf [.checkStart "x" "y", .checkEnd] = none := rfl

end Verif.Registry
