import Verif.AMap
set_option linter.unusedSimpArgs false
set_option linter.unusedVariables false
/-!
# Temporary login keys of the web UI (web/server/tokenManager.go)

Both methods run under `mtx`, so concurrent use is a sequence of calls. The random key (util.RandomString)
is a parameter of the generate call; that two generations return different keys is not assumed.
-/
namespace Verif.Limits.Token
open Verif

variable {Key Tok : Type} [DecidableEq Key]

/-- tokenManager.go:10-15 `TempKeyDetails`; times are numbers. -/
structure Det (Tok : Type) where
  expire : Nat
  use : Nat
  max : Nat
  tok : Tok
deriving DecidableEq, Repr

/-- tokenManager.go:16-20. -/
structure Cfg where
  maxUse : Nat
  dur : Nat

/-- tokenManager.go:46-58 `GenerateTempKey` when the random source gives `k`. -/
def generate (c : Cfg) (m : AMap Key (Det Tok)) (k : Key) (now : Nat) (t : Tok) : AMap Key (Det Tok) :=
  m.set k ⟨now + c.dur, 0, c.maxUse, t⟩

/-- tokenManager.go:60-81 `GetActualToken`. -/
def getToken (m : AMap Key (Det Tok)) (k : Key) (now : Nat) : Option Tok × AMap Key (Det Tok) :=
  match m.get k with
  | none => (none, m)
  | some d =>
    if d.expire < now then (none, m.del k)
    else if d.max ≤ d.use then (none, m.del k)
    else (some d.tok, m.set k { d with use := d.use + 1 })

inductive Ev (Key Tok : Type) where
  | gen (k : Key) (now : Nat) (t : Tok)
  | get (k : Key) (now : Nat)

def step (c : Cfg) (m : AMap Key (Det Tok)) : Ev Key Tok → Option Tok × AMap Key (Det Tok)
  | .gen k n t => (none, generate c m k n t)
  | .get k n => getToken m k n

def runState (c : Cfg) : List (Ev Key Tok) → AMap Key (Det Tok) → AMap Key (Det Tok)
  | [], m => m
  | e :: es, m => runState c es (step c m e).2

/-- The answer to a final `get k` at time `now` after the calls `es`. -/
def answer (c : Cfg) (es : List (Ev Key Tok)) (k : Key) (now : Nat) : Option Tok :=
  (getToken (runState c es []) k now).1

/-! ## Specification vocabulary -/

def Ev.time : Ev Key Tok → Nat
  | .gen _ n _ => n
  | .get _ n => n

def isGen (k : Key) : Ev Key Tok → Bool
  | .gen k' _ _ => k' = k
  | .get _ _ => false

def isGet (k : Key) : Ev Key Tok → Bool
  | .gen _ _ _ => false
  | .get k' _ => k' = k

/-! ## Proofs -/

theorem runState_append (c : Cfg) (a b : List (Ev Key Tok)) (m) : runState c (a ++ b) m = runState c b (runState c a m) := by
  induction a generalizing m with
  | nil => rfl
  | cons e a ih => simp only [List.cons_append, runState]; exact ih _

theorem step_other (c : Cfg) (m : AMap Key (Det Tok)) (e : Ev Key Tok) (k : Key) (h1 : isGen k e = false)
    (h2 : isGet k e = false) : (step c m e).2.get k = m.get k := by
  cases e with
  | gen k' n t =>
    simp only [isGen, decide_eq_false_iff_not] at h1
    simp only [step, generate]; exact AMap.get_set_ne _ _ h1
  | get k' n =>
    simp only [isGet, decide_eq_false_iff_not] at h2
    simp only [step, getToken]
    split
    · rfl
    · split
      · rw [AMap.get_del, if_neg h2]
      · split
        · rw [AMap.get_del, if_neg h2]
        · exact AMap.get_set_ne _ _ h2

/-- Without a generation of `k` an absent key stays absent. -/
theorem stays_none (c : Cfg) (es : List (Ev Key Tok)) (k : Key) (h : ∀ e ∈ es, isGen k e = false)
    (m : AMap Key (Det Tok)) (hm : m.get k = none) : (runState c es m).get k = none := by
  induction es generalizing m with
  | nil => exact hm
  | cons e es ih =>
    simp only [runState]
    apply ih (fun e' he' => h e' (by simp [he']))
    cases hg : isGet k e with
    | false => rw [step_other c m e k (h e (by simp)) hg]; exact hm
    | true =>
      cases e with
      | gen k' n t => simp [isGet] at hg
      | get k' n =>
        simp only [isGet, decide_eq_true_eq] at hg; subst hg
        simp only [step, getToken, hm]

/-- C19 (no forging). A key that was never handed out is never accepted. -/
theorem ungenerated_key_rejected (c : Cfg) (es : List (Ev Key Tok)) (k : Key) (now : Nat)
    (h : ∀ e ∈ es, isGen k e = false) : answer c es k now = none := by
  simp only [answer, getToken, stays_none c es k h [] (by simp)]

/-- C19 (exact lifetime). After a key was handed out at time `t0` (its last generation), a presentation of it
at time `now` is accepted, with the token it was issued for, exactly if it is not later than the expiry and
fewer than `MaxUse` presentations of that key were made since. Calls for other keys (anything else in
`before` and `mid`) make no difference. -/
theorem key_accepted_iff (c : Cfg) (before mid : List (Ev Key Tok)) (k : Key) (t0 now : Nat) (a : Tok)
    (hmid : ∀ e ∈ mid, isGen k e = false) (hmono : ∀ e ∈ mid, e.time ≤ now) :
    answer c (before ++ .gen k t0 a :: mid) k now =
      if now ≤ t0 + c.dur ∧ (mid.filter (isGet k)).length < c.maxUse then some a else none := by
  have key : ∀ (mid : List (Ev Key Tok)) (m : AMap Key (Det Tok)) (u : Nat), u ≤ c.maxUse →
      (∀ e ∈ mid, isGen k e = false) → (∀ e ∈ mid, e.time ≤ now) → now ≤ t0 + c.dur →
      m.get k = some ⟨t0 + c.dur, u, c.maxUse, a⟩ →
      (u + (mid.filter (isGet k)).length ≤ c.maxUse →
        (runState c mid m).get k = some ⟨t0 + c.dur, u + (mid.filter (isGet k)).length, c.maxUse, a⟩) ∧
      (c.maxUse < u + (mid.filter (isGet k)).length → (runState c mid m).get k = none) := by
    intro mid
    induction mid with
    | nil => intro m u hu _ _ _ hm; simp only [List.filter_nil, List.length_nil]; exact ⟨fun _ => hm, fun h => absurd hu (by omega)⟩
    | cons e mid ih =>
      intro m u hu h1 h2 hle hm
      have h1' : ∀ e ∈ mid, isGen k e = false := fun e' he' => h1 e' (by simp [he'])
      have h2' : ∀ e ∈ mid, e.time ≤ now := fun e' he' => h2 e' (by simp [he'])
      simp only [runState]
      cases hg : isGet k e with
      | false =>
        simp only [List.filter_cons, hg, Bool.false_eq_true, if_false]
        exact ih _ u hu h1' h2' hle (by rw [step_other c m e k (h1 e (by simp)) hg]; exact hm)
      | true =>
        simp only [List.filter_cons, hg, if_true, List.length_cons]
        cases e with
        | gen k' n t => simp [isGet] at hg
        | get k' n =>
          simp only [isGet, decide_eq_true_eq] at hg; subst hg
          have hn : n ≤ now := h2 (.get k' n) (by simp)
          by_cases hu' : c.maxUse ≤ u
          · -- exhausted: the entry is deleted
            have : (step c m (.get k' n)).2.get k' = none := by
              simp only [step, getToken, hm]
              rw [if_neg (by omega), if_pos (by omega)]
              simp
            refine ⟨fun h => absurd h (by omega), fun _ => ?_⟩
            exact stays_none c mid k' h1' _ this
          · have : (step c m (.get k' n)).2.get k' = some ⟨t0 + c.dur, u + 1, c.maxUse, a⟩ := by
              simp only [step, getToken, hm]
              rw [if_neg (by omega), if_neg (by omega)]
              simp
            have := ih _ (u + 1) (by omega) h1' h2' hle this
            have e1 : u + ((mid.filter (isGet k')).length + 1) = u + 1 + (mid.filter (isGet k')).length := by omega
            rw [e1]; exact this
  unfold answer
  rw [runState_append]
  simp only [runState]
  by_cases hle : now ≤ t0 + c.dur
  · have hgen : (step c (runState c before []) (.gen k t0 a)).2.get k = some ⟨t0 + c.dur, 0, c.maxUse, a⟩ := by
      simp [step, generate]
    obtain ⟨k1, k2⟩ := key mid _ 0 (Nat.zero_le _) hmid hmono hle hgen
    simp only [Nat.zero_add] at k1 k2
    by_cases hlt : (mid.filter (isGet k)).length < c.maxUse
    · rw [if_pos ⟨hle, hlt⟩]
      simp only [getToken, k1 (by omega)]
      rw [if_neg (by omega), if_neg (by omega)]
    · rw [if_neg (fun h => hlt h.2)]
      by_cases heq : (mid.filter (isGet k)).length ≤ c.maxUse
      · simp only [getToken, k1 heq]
        rw [if_neg (by omega), if_pos (by omega)]
      · simp only [getToken, k2 (by omega)]
  · rw [if_neg (fun h => hle h.1)]
    -- whatever is stored for k expires at t0 + dur or was deleted
    have exp : ∀ (mid : List (Ev Key Tok)) (m : AMap Key (Det Tok)), (∀ e ∈ mid, isGen k e = false) →
        (∀ d, m.get k = some d → d.expire = t0 + c.dur) → ∀ d, (runState c mid m).get k = some d → d.expire = t0 + c.dur := by
      intro mid
      induction mid with
      | nil => intro m _ hm; exact hm
      | cons e mid ih =>
        intro m h1 hm
        simp only [runState]
        apply ih _ (fun e' he' => h1 e' (by simp [he']))
        cases hg : isGet k e with
        | false => rw [step_other c m e k (h1 e (by simp)) hg]; exact hm
        | true =>
          cases e with
          | gen k' n t => simp [isGet] at hg
          | get k' n =>
            simp only [isGet, decide_eq_true_eq] at hg; subst hg
            intro d hd
            simp only [step, getToken] at hd
            split at hd
            · rename_i hn; rw [hn] at hd; simp at hd
            · rename_i d' hd'
              split at hd
              · simp at hd
              · split at hd
                · simp at hd
                · simp at hd; subst hd; exact hm d' hd'
    have := exp mid (step c (runState c before []) (.gen k t0 a)).2 hmid (by
      intro d hd
      simp only [step, generate, AMap.get_set_self, Option.some.injEq] at hd
      subst hd; rfl)
    simp only [getToken]
    split
    · rfl
    · rename_i d hd
      rw [if_pos]
      rw [this d hd]; omega

/-- Witness: three uses with the default limit, the fourth is refused, another key is not affected. -/
example : let c : Cfg := ⟨3, 180⟩
    let es : List (Ev Nat Nat) := [.gen 7 0 100, .gen 8 1 200, .get 7 2, .get 7 3, .get 8 4]
    answer c es 7 180 = some 100 ∧ answer c es 7 181 = none ∧ answer c (es ++ [.get 7 5]) 7 6 = none ∧
    answer c es 8 5 = some 200 ∧ answer c es 9 5 = none := by decide

end Verif.Limits.Token
