import Verif.AMap
set_option linter.unusedSimpArgs false
set_option linter.unusedVariables false
/-!
# Reconnect limiting (libcs/server/conn.go:151-157, 401-417, 447-462)

A connection reads the failure count of its IP once, before the handshake; a failed authentication adds one
under the lock and, when the count exceeds the limit, starts a timer that resets the count. Between the check
and the failure any number of other connections may run, so a passed check (`inflight`), a failure and a
timer firing are separate steps.
-/
namespace Verif.Limits.Reconnect
open Verif

variable {IP : Type} [DecidableEq IP]

/-- libcs/server/config.go:58-59. `dur = 0` means blocked IPs are never released. -/
structure Cfg where
  times : Nat
  dur : Nat

/-- libcs/server/server.go:78 `reconnect`, the clock, the pending `time.AfterFunc` timers and the connections that
passed the check and have not finished. -/
structure St (IP : Type) where
  cnt : AMap IP Nat
  now : Nat
  timers : List (Nat × IP)
  inflight : List IP
deriving DecidableEq, Repr

def start : St IP := ⟨[], 0, [], []⟩

/-- `c.server.reconnect[remoteIP]` (a missing key is 0). -/
def St.count (s : St IP) (ip : IP) : Nat := (s.cnt.get ip).getD 0

/-- libcs/server/conn.go:154 `reconnectTimes > c.server.config.ReconnectTimes`. -/
def refuses (c : Cfg) (s : St IP) (ip : IP) : Bool := c.times < s.count ip

inductive Ev (IP : Type) where
  /-- a handshake arrives from `ip` -/
  | connect (ip : IP)
  /-- a connection that passed the check fails authentication -/
  | fail (ip : IP)
  /-- a connection that passed the check ends otherwise -/
  | leave (ip : IP)
  | tick (d : Nat)
  /-- a due timer fires -/
  | fire (due : Nat) (ip : IP)

/-- One step; `none` if not enabled. -/
def step (c : Cfg) (s : St IP) : Ev IP → Option (St IP)
  | .connect ip => some (if refuses c s ip then s else { s with inflight := ip :: s.inflight })
  | .fail ip =>
    if ip ∈ s.inflight then
      let n := (s.count ip + 1) % 4294967296
      some { s with
        inflight := s.inflight.erase ip
        cnt := s.cnt.set ip n
        timers := if 0 < c.dur ∧ c.times < n then (s.now + c.dur, ip) :: s.timers else s.timers }
    else none
  | .leave ip => if ip ∈ s.inflight then some { s with inflight := s.inflight.erase ip } else none
  | .tick d => some { s with now := s.now + d }
  | .fire due ip =>
    if (due, ip) ∈ s.timers ∧ due ≤ s.now then
      some { s with cnt := s.cnt.set ip 0, timers := s.timers.erase (due, ip) }
    else none

def run (c : Cfg) : List (Ev IP) → St IP → Option (St IP)
  | [], s => some s
  | e :: es, s =>
    match step c s e with
    | some s' => run c es s'
    | none => none

/-! ## Specification vocabulary -/

/-- Number of failed authentications from `ip`. -/
def failures (ip : IP) (es : List (Ev IP)) : Nat :=
  (es.filter (fun e => match e with | .fail i => i = ip | _ => false)).length

/-- The event belongs to `ip` (clock ticks belong to everybody). -/
def concerns (ip : IP) : Ev IP → Bool
  | .connect i | .fail i | .leave i | .fire _ i => i = ip
  | .tick _ => true

def isFail (ip : IP) : Ev IP → Bool
  | .fail i => i = ip
  | _ => false

def isFire (ip : IP) : Ev IP → Bool
  | .fire _ i => i = ip
  | _ => false

/-! ## Proofs -/

theorem run_append (c : Cfg) (a b : List (Ev IP)) (s : St IP) :
    run c (a ++ b) s = (run c a s).bind (run c b) := by
  induction a generalizing s with
  | nil => rfl
  | cons e a ih =>
    simp only [List.cons_append, run]
    cases step c s e with
    | none => rfl
    | some s' => exact ih s'

theorem failures_cons (ip : IP) (e : Ev IP) (es : List (Ev IP)) :
    failures ip (e :: es) = (if isFail ip e then 1 else 0) + failures ip es := by
  simp only [failures, List.filter_cons]
  cases e <;> simp [isFail]
  split <;> simp <;> omega

theorem count_set (s : St IP) (i ip : IP) (n : Nat) (t f m) :
    St.count ⟨s.cnt.set i n, t, f, m⟩ ip = if i = ip then n else s.count ip := by
  simp only [St.count, AMap.get_set]; split <;> rfl

/-- How one step moves the count of `ip`. -/
theorem count_step (c : Cfg) (s s' : St IP) (e : Ev IP) (h : step c s e = some s') (ip : IP) :
    s'.count ip = if isFail ip e then (s.count ip + 1) % 4294967296 else if isFire ip e then 0 else s.count ip := by
  cases e with
  | connect i => simp only [step, Option.some.injEq] at h; subst h; split <;> simp [isFail, isFire, St.count]
  | fail i =>
    simp only [step] at h
    split at h
    · simp only [Option.some.injEq] at h; subst h
      simp only [count_set, isFail, isFire, decide_eq_true_eq]
      split
      · rename_i hi; subst hi; rfl
      · simp
    · simp at h
  | leave i =>
    simp only [step] at h
    split at h
    · simp only [Option.some.injEq] at h; subst h; simp [isFail, isFire, St.count]
    · simp at h
  | tick d => simp only [step, Option.some.injEq] at h; subst h; simp [isFail, isFire, St.count]
  | fire d i =>
    simp only [step] at h
    split at h
    · simp only [Option.some.injEq] at h; subst h
      simp only [count_set, isFail, isFire, decide_eq_true_eq, Bool.false_eq_true, if_false]
    · simp at h

theorem count_le_failures (c : Cfg) (es : List (Ev IP)) (s s' : St IP) (h : run c es s = some s') (ip : IP) :
    s'.count ip ≤ s.count ip + failures ip es := by
  induction es generalizing s with
  | nil => simp only [run, Option.some.injEq] at h; subst h; simp [failures]
  | cons e es ih =>
    simp only [run] at h
    split at h
    · rename_i s1 h1
      have := ih s1 h
      have hc := count_step c s s1 e h1 ip
      rw [failures_cons]
      cases hf : isFail ip e with
      | true =>
        rw [hf] at hc; simp only [if_true] at hc ⊢
        have := Nat.mod_le (s.count ip + 1) 4294967296
        omega
      | false =>
        rw [hf] at hc; simp only [Bool.false_eq_true, if_false] at hc ⊢
        split at hc <;> omega
    · simp at h

/-- C21 (never blocked wrongly). Whatever everybody does, an IP with at most the configured number of failed
authentications is never refused. -/
theorem few_failures_never_refused (c : Cfg) (es : List (Ev IP)) (s : St IP) (h : run c es start = some s) (ip : IP)
    (hf : failures ip es ≤ c.times) : refuses c s ip = false := by
  have := count_le_failures c es start s h ip
  simp only [refuses, decide_eq_false_iff_not]
  have : (start : St IP).count ip = 0 := rfl
  omega

/-- C21 (blocked). An IP whose failures exceed the configured number is refused, whatever other IPs do and
however its connections overlap, as long as no release timer of it has fired. -/
theorem many_failures_refused (c : Cfg) (es : List (Ev IP)) (s : St IP) (h : run c es start = some s) (ip : IP)
    (hf : c.times < failures ip es) (hlt : failures ip es < 4294967296) (hnf : ∀ e ∈ es, isFire ip e = false) :
    refuses c s ip = true := by
  have key : ∀ (es : List (Ev IP)) (s0 : St IP), run c es s0 = some s → (∀ e ∈ es, isFire ip e = false) →
      s0.count ip + failures ip es < 4294967296 → s.count ip = s0.count ip + failures ip es := by
    intro es
    induction es with
    | nil => intro s0 h _ _; simp only [run, Option.some.injEq] at h; subst h; simp [failures]
    | cons e es ih =>
      intro s0 h hnf hlt
      simp only [run] at h
      split at h
      · rename_i s1 h1
        rw [failures_cons] at hlt ⊢
        have hc := count_step c s0 s1 e h1 ip
        rw [hnf e (by simp)] at hc
        cases hf : isFail ip e with
        | true =>
          rw [hf] at hc; simp only [hf, if_true] at hc hlt ⊢
          rw [Nat.mod_eq_of_lt (by omega)] at hc
          rw [ih s1 h (fun e' he' => hnf e' (by simp [he'])) (by omega)]; omega
        | false =>
          rw [hf] at hc; simp only [hf, Bool.false_eq_true, if_false] at hc hlt ⊢
          rw [ih s1 h (fun e' he' => hnf e' (by simp [he'])) (by omega)]; omega
      · simp at h
  have h0 : (start : St IP).count ip = 0 := rfl
  have := key es start h hnf (by omega)
  simp only [refuses, decide_eq_true_eq]; omega

/-- What `ip` can see of a state. -/
def Agree (ip : IP) (s t : St IP) : Prop :=
  s.count ip = t.count ip ∧ s.now = t.now ∧ (∀ d, s.timers.count (d, ip) = t.timers.count (d, ip)) ∧
    s.inflight.count ip = t.inflight.count ip

/-- C21 (isolation). Removing everything other IPs did from an execution changes nothing for `ip`: the same
steps are possible and it is refused in exactly the same situations. -/
theorem other_ips_do_not_matter (c : Cfg) (es : List (Ev IP)) (s : St IP) (h : run c es start = some s) (ip : IP) :
    ∃ t, run c (es.filter (concerns ip)) start = some t ∧ refuses c t ip = refuses c s ip := by
  have key : ∀ (es : List (Ev IP)) (s0 t0 : St IP), run c es s0 = some s → Agree ip s0 t0 →
      ∃ t, run c (es.filter (concerns ip)) t0 = some t ∧ Agree ip s t := by
    intro es
    induction es with
    | nil => intro s0 t0 h ha; simp only [run, Option.some.injEq] at h; subst h; exact ⟨t0, rfl, ha⟩
    | cons e es ih =>
      intro s0 t0 h ha
      simp only [run] at h
      split at h
      · rename_i s1 h1
        obtain ⟨a1, a2, a3, a4⟩ := ha
        have hmem : ∀ (l l' : List IP), l.count ip = l'.count ip → (ip ∈ l ↔ ip ∈ l') := by
          intro l l' hl; rw [← List.count_pos_iff, ← List.count_pos_iff, hl]
        have hmemT : ∀ d, ((d, ip) ∈ s0.timers ↔ (d, ip) ∈ t0.timers) := by
          intro d; rw [← List.count_pos_iff, ← List.count_pos_iff, a3]
        have hre : refuses c s0 ip = refuses c t0 ip := by simp [refuses, a1]
        cases hc : concerns ip e with
        | false =>
          simp only [List.filter_cons, hc, Bool.false_eq_true, if_false]
          refine ih s1 t0 h ?_
          cases e with
          | connect i =>
            simp only [concerns, decide_eq_false_iff_not] at hc
            simp only [step, Option.some.injEq] at h1; subst h1
            split
            · exact ⟨a1, a2, a3, a4⟩
            · exact ⟨a1, a2, a3, by simp only [List.count_cons, beq_iff_eq, hc, if_false]; omega⟩
          | fail i =>
            simp only [concerns, decide_eq_false_iff_not] at hc
            simp only [step] at h1
            split at h1
            · simp only [Option.some.injEq] at h1; subst h1
              refine ⟨by rw [count_set, if_neg hc]; exact a1, a2, ?_, ?_⟩
              · intro d
                simp only
                split
                · simp only [List.count_cons, beq_iff_eq, Prod.mk.injEq, hc, and_false, if_false]; rw [a3]; rfl
                · exact a3 d
              · simp only [List.count_erase, beq_iff_eq]; simp [hc, a4]
            · simp at h1
          | leave i =>
            simp only [concerns, decide_eq_false_iff_not] at hc
            simp only [step] at h1
            split at h1
            · simp only [Option.some.injEq] at h1; subst h1
              exact ⟨a1, a2, a3, by simp only [List.count_erase, beq_iff_eq]; simp [hc, a4]⟩
            · simp at h1
          | tick d => simp [concerns] at hc
          | fire d i =>
            simp only [concerns, decide_eq_false_iff_not] at hc
            simp only [step] at h1
            split at h1
            · simp only [Option.some.injEq] at h1; subst h1
              refine ⟨by rw [count_set, if_neg hc]; exact a1, a2, ?_, a4⟩
              intro d'
              simp only [List.count_erase, beq_iff_eq, Prod.mk.injEq, hc, and_false, if_false]
              rw [a3]; rfl
            · simp at h1
        | true =>
          simp only [List.filter_cons, hc, if_true, run]
          have : ∃ t1, step c t0 e = some t1 ∧ Agree ip s1 t1 := by
            cases e with
            | connect i =>
              simp only [concerns, decide_eq_true_eq] at hc; subst hc
              simp only [step, Option.some.injEq] at h1; subst h1
              refine ⟨_, rfl, ?_⟩
              rw [← hre]
              split
              · exact ⟨a1, a2, a3, a4⟩
              · exact ⟨a1, a2, a3, by simp [List.count_cons, a4]⟩
            | fail i =>
              simp only [concerns, decide_eq_true_eq] at hc; subst hc
              simp only [step] at h1 ⊢
              split at h1
              · rename_i hm
                rw [if_pos ((hmem _ _ a4).mp hm)]
                simp only [Option.some.injEq] at h1; subst h1
                refine ⟨_, rfl, by rw [count_set, count_set, a1], a2, ?_, ?_⟩
                · intro d
                  simp only [a1, a2]
                  split
                  · simp [List.count_cons, a3]
                  · exact a3 d
                · simp [List.count_erase, a4]
              · simp at h1
            | leave i =>
              simp only [concerns, decide_eq_true_eq] at hc; subst hc
              simp only [step] at h1 ⊢
              split at h1
              · rename_i hm
                rw [if_pos ((hmem _ _ a4).mp hm)]
                simp only [Option.some.injEq] at h1; subst h1
                exact ⟨_, rfl, a1, a2, a3, by simp [List.count_erase, a4]⟩
              · simp at h1
            | tick d =>
              simp only [step, Option.some.injEq] at h1 ⊢; subst h1
              exact ⟨_, rfl, a1, by simp [a2], a3, a4⟩
            | fire d i =>
              simp only [concerns, decide_eq_true_eq] at hc; subst hc
              simp only [step] at h1 ⊢
              split at h1
              · rename_i hm
                rw [if_pos ⟨(hmemT d).mp hm.1, a2 ▸ hm.2⟩]
                simp only [Option.some.injEq] at h1; subst h1
                refine ⟨_, rfl, by rw [count_set, count_set, a1], a2, ?_, a4⟩
                intro d'; simp only [List.count_erase, a3]
              · simp at h1
          obtain ⟨t1, ht1, ha1⟩ := this
          rw [ht1]; exact ih s1 t1 h ha1
      · simp at h
  obtain ⟨t, h1, h2⟩ := key es start start h ⟨rfl, rfl, fun _ => rfl, rfl⟩
  exact ⟨t, h1, by simp [refuses, h2.1]⟩

/-- No connection of `ip` fails authentication while the IP is blocked, i.e. nobody passed the check before
the block and failed after it. -/
def NoLateFailure (c : Cfg) (ip : IP) : List (Ev IP) → St IP → Prop
  | [], _ => True
  | e :: es, s =>
    (isFail ip e = true → refuses c s ip = false) ∧
    match step c s e with
    | some s' => NoLateFailure c ip es s'
    | none => True

/-- Without late failures: a timer of `ip` is pending only while it is blocked. -/
theorem timers_inv (c : Cfg) (ip : IP) (hN : c.times < 4294967295) (es : List (Ev IP)) (s s' : St IP)
    (h : run c es s = some s') (hl : NoLateFailure c ip es s)
    (h0 : s.count ip ≤ c.times → ∀ d, (d, ip) ∉ s.timers)
    (h1 : ∀ d d', (d, ip) ∈ s.timers → (d', ip) ∈ s.timers → d = d')
    (h3 : ∀ d, s.timers.count (d, ip) ≤ 1) :
    (s'.count ip ≤ c.times → ∀ d, (d, ip) ∉ s'.timers) ∧
    (∀ d d', (d, ip) ∈ s'.timers → (d', ip) ∈ s'.timers → d = d') ∧
    (∀ d, s'.timers.count (d, ip) ≤ 1) := by
  induction es generalizing s with
  | nil => simp only [run, Option.some.injEq] at h; subst h; exact ⟨h0, h1, h3⟩
  | cons e es ih =>
    simp only [run] at h
    split at h
    · rename_i s1 hs1
      obtain ⟨hl1, hl2⟩ := hl
      rw [hs1] at hl2
      have hcs := count_step c s s1 e hs1 ip
      refine ih s1 h hl2 ?_ ?_ ?_
      all_goals
        cases e with
        | connect i =>
          simp only [step, Option.some.injEq] at hs1; subst hs1
          split <;> first | exact h0 | exact h1 | exact h3
        | leave i =>
          simp only [step] at hs1
          split at hs1
          · simp only [Option.some.injEq] at hs1; subst hs1; first | exact h0 | exact h1 | exact h3
          · simp at hs1
        | tick d =>
          simp only [step, Option.some.injEq] at hs1; subst hs1; first | exact h0 | exact h1 | exact h3
        | fail i =>
          simp only [step] at hs1
          split at hs1
          · simp only [Option.some.injEq] at hs1; subst hs1
            by_cases hi : i = ip
            · subst hi
              have hle : s.count i ≤ c.times := by
                have := hl1 (by simp [isFail]); simpa [refuses] using this
              have hnone := h0 hle
              have hcz : ∀ d, s.timers.count (d, i) = 0 := fun d => List.count_eq_zero.mpr (hnone d)
              simp only [isFail, decide_true, if_true] at hcs
              simp only
              first
                | (intro hle'; rw [hcs] at hle'; intro d; rw [if_neg (by omega)]; exact hnone d)
                | (intro d d' hd hd'
                   split at hd
                   · rename_i hc
                     rw [if_pos hc] at hd'
                     simp only [List.mem_cons, Prod.mk.injEq, and_true] at hd hd'
                     rcases hd with hd | hd
                     · rcases hd' with hd' | hd'
                       · omega
                       · exact absurd hd' (hnone d')
                     · exact absurd hd (hnone d)
                   · exact absurd hd (hnone d))
                | (intro d
                   split
                   · simp only [List.count_cons, hcz]; split <;> simp
                   · rw [hcz]; omega)
            · simp only [isFail, hi, decide_false, Bool.false_eq_true, if_false, isFire] at hcs
              have hmem : ∀ d, ((d, ip) ∈ (if 0 < c.dur ∧ c.times < (s.count i + 1) % 4294967296 then
                  (s.now + c.dur, i) :: s.timers else s.timers)) ↔ (d, ip) ∈ s.timers := by
                intro d; split
                · simp [Ne.symm hi]
                · rfl
              first
                | (intro hle'; rw [hcs] at hle'; intro d; rw [hmem]; exact h0 hle' d)
                | (intro d d' hd hd'; rw [hmem] at hd hd'; exact h1 d d' hd hd')
                | (intro d
                   simp only
                   split
                   · simp only [List.count_cons, beq_iff_eq, Prod.mk.injEq, hi, and_false, if_false]; exact h3 d
                   · exact h3 d)
          · simp at hs1
        | fire due i =>
          simp only [step] at hs1
          split at hs1
          · rename_i hm
            simp only [Option.some.injEq] at hs1; subst hs1
            by_cases hi : i = ip
            · subst hi
              have hone : ∀ d, (d, i) ∉ s.timers.erase (due, i) := by
                intro d hd
                have := h1 d due (List.mem_of_mem_erase hd) hm.1
                subst this
                have h3' := h3 d
                have : 0 < (s.timers.erase (d, i)).count (d, i) := List.count_pos_iff.mpr hd
                rw [List.count_erase] at this; simp at this; omega
              first
                | (intro _ d; exact hone d)
                | (intro d d' hd; exact absurd hd (hone d))
                | (intro d; rw [List.count_eq_zero.mpr (hone d)]; omega)
            · simp only [isFail, isFire, hi, decide_false, Bool.false_eq_true, if_false] at hcs
              have hmem : ∀ d, (d, ip) ∈ s.timers.erase (due, i) ↔ (d, ip) ∈ s.timers := by
                intro d; exact List.mem_erase_of_ne (by simp [Ne.symm hi])
              first
                | (intro hle'; rw [hcs] at hle'; intro d; rw [hmem]; exact h0 hle' d)
                | (intro d d' hd hd'; rw [hmem] at hd hd'; exact h1 d d' hd hd')
                | (intro d
                   rw [List.count_erase]; simp only [beq_iff_eq, Prod.mk.injEq, hi, and_false, if_false]
                   exact h3 d)
          · simp at hs1
    · simp at h

/-- C21 (blocked for the whole duration), when no connection that passed the check earlier fails after the
block began: from the failure that blocks an IP at time `t`, the IP is refused at every time before
`t + ReconnectDuration` (for ever if the duration is 0). Missing: late failures, see
`late_failure_shortens_block`. -/
theorem blocked_for_the_duration_partial (c : Cfg) (hN : c.times < 4294967295) (before after : List (Ev IP)) (ip : IP)
    (s1 s2 s3 : St IP) (h1 : run c before start = some s1) (h2 : step c s1 (.fail ip) = some s2)
    (h3 : run c after s2 = some s3) (hl : NoLateFailure c ip (before ++ .fail ip :: after) start)
    (hb : refuses c s2 ip = true) (ht : c.dur = 0 ∨ s3.now < s1.now + c.dur) : refuses c s3 ip = true := by
  -- split the hypothesis about late failures
  have hsplit : ∀ (es : List (Ev IP)) (s t : St IP) (rest : List (Ev IP)), run c es s = some t →
      NoLateFailure c ip (es ++ rest) s → NoLateFailure c ip es s ∧ NoLateFailure c ip rest t := by
    intro es
    induction es with
    | nil => intro s t rest h hl; simp only [run, Option.some.injEq] at h; subst h; exact ⟨trivial, hl⟩
    | cons e es ih =>
      intro s t rest h hl
      simp only [run] at h
      split at h
      · rename_i s1 hs1
        simp only [List.cons_append, NoLateFailure, hs1] at hl ⊢
        obtain ⟨a, b⟩ := ih s1 t rest h hl.2
        exact ⟨⟨hl.1, a⟩, b⟩
      · simp at h
  obtain ⟨l1, l2⟩ := hsplit before start s1 _ h1 hl
  simp only [NoLateFailure, h2] at l2
  obtain ⟨l3, l4⟩ := l2
  obtain ⟨i0, i1, i3⟩ := timers_inv c ip hN before start s1 h1 l1 (by simp [start]) (by simp [start]) (by simp [start])
  have hle : s1.count ip ≤ c.times := by
    have := l3 (by simp [isFail]); simpa [refuses] using this
  have hno := i0 hle
  have hc2 := count_step c s1 s2 _ h2 ip
  simp only [isFail, decide_true, if_true] at hc2
  -- timers of ip in s2 are all due at s1.now + dur, and there are none if dur = 0
  have ht2 : ∀ d, (d, ip) ∈ s2.timers → 0 < c.dur ∧ d = s1.now + c.dur := by
    intro d hd
    simp only [step] at h2
    split at h2
    · simp only [Option.some.injEq] at h2; subst h2
      simp only at hd
      split at hd
      · rename_i hc
        simp only [List.mem_cons, Prod.mk.injEq, and_true] at hd
        rcases hd with hd | hd
        · exact ⟨hc.1, hd⟩
        · exact absurd hd (hno d)
      · exact absurd hd (hno d)
    · simp at h2
  have hnow2 : s2.now = s1.now := by
    simp only [step] at h2
    split at h2
    · simp only [Option.some.injEq] at h2; subst h2; rfl
    · simp at h2
  -- along `after`
  have key : ∀ (es : List (Ev IP)) (s t : St IP), run c es s = some t → NoLateFailure c ip es s →
      refuses c s ip = true → (∀ d, (d, ip) ∈ s.timers → 0 < c.dur ∧ d = s1.now + c.dur) →
      (c.dur = 0 ∨ t.now < s1.now + c.dur) → s.now ≤ t.now ∧ refuses c t ip = true := by
    intro es
    induction es with
    | nil => intro s t h _ hb _ _; simp only [run, Option.some.injEq] at h; subst h; exact ⟨Nat.le_refl _, hb⟩
    | cons e es ih =>
      intro s t h hl hb htm hend
      have hmono : ∀ (es : List (Ev IP)) (s t : St IP), run c es s = some t → s.now ≤ t.now := by
        intro es
        induction es with
        | nil => intro s t h; simp only [run, Option.some.injEq] at h; subst h; exact Nat.le_refl _
        | cons e es ih =>
          intro s t h
          simp only [run] at h
          split at h
          · rename_i s1 hs1
            refine Nat.le_trans ?_ (ih s1 t h)
            cases e <;> simp only [step] at hs1
            case connect i => simp only [Option.some.injEq] at hs1; subst hs1; split <;> exact Nat.le_refl _
            case fail i => split at hs1 <;> simp at hs1; subst hs1; exact Nat.le_refl _
            case leave i => split at hs1 <;> simp at hs1; subst hs1; exact Nat.le_refl _
            case tick d => simp only [Option.some.injEq] at hs1; subst hs1; exact Nat.le_add_right _ _
            case fire d i => split at hs1 <;> simp at hs1; subst hs1; exact Nat.le_refl _
          · simp at h
      refine ⟨hmono _ s t h, ?_⟩
      simp only [run] at h
      split at h
      · rename_i s' hs'
        obtain ⟨la, lb⟩ := hl
        rw [hs'] at lb
        have hm := hmono es s' t h
        have hcs := count_step c s s' e hs' ip
        have hnf : isFail ip e = false := by
          cases hq : isFail ip e with
          | false => rfl
          | true => have := la hq; rw [hb] at this; simp at this
        rw [hnf] at hcs
        have hfire : isFire ip e = false := by
          cases hq : isFire ip e with
          | false => rfl
          | true =>
            cases e <;> simp only [isFire, Bool.false_eq_true] at hq
            case fire d i =>
              simp only [decide_eq_true_eq] at hq; subst hq
              simp only [step] at hs'
              split at hs'
              · rename_i hcond
                obtain ⟨x, y⟩ := htm d hcond.1
                simp only [Option.some.injEq] at hs'; subst hs'
                rcases hend with h0 | h0
                · omega
                · have : s.now ≤ t.now := hm
                  omega
              · simp at hs'
        rw [hfire] at hcs
        simp only [Bool.false_eq_true, if_false] at hcs
        refine (ih s' t h lb (by simpa [refuses, hcs] using hb) ?_ hend).2
        intro d hd
        apply htm
        cases e <;> simp only [step] at hs'
        case connect i => simp only [Option.some.injEq] at hs'; subst hs'; split at hd <;> exact hd
        case fail i =>
          split at hs' <;> simp at hs'; subst hs'
          have hi : ¬ i = ip := by simpa [isFail] using hnf
          simp only at hd
          split at hd
          · simp only [List.mem_cons, Prod.mk.injEq, Ne.symm hi, and_false, false_or] at hd; exact hd
          · exact hd
        case leave i => split at hs' <;> simp at hs'; subst hs'; exact hd
        case tick d => simp only [Option.some.injEq] at hs'; subst hs'; exact hd
        case fire d' i => split at hs' <;> simp at hs'; subst hs'; exact List.mem_of_mem_erase hd
      · simp at h
  exact (key after s2 s3 h3 l4 hb ht2 ht).2

/-- Witness: limit 1, duration 10: blocked by the second failure at time 5, refused at 14, released at 15. -/
example : ∃ s2 s3 s4 : St Nat, run ⟨1, 10⟩ [.connect 7, .fail 7, .tick 5, .connect 7, .fail 7] start = some s2 ∧
    refuses ⟨1, 10⟩ s2 7 = true ∧ run ⟨1, 10⟩ [.tick 9] s2 = some s3 ∧ refuses ⟨1, 10⟩ s3 7 = true ∧
    run ⟨1, 10⟩ [.tick 1, .fire 15 7] s3 = some s4 ∧ refuses ⟨1, 10⟩ s4 7 = false ∧ refuses ⟨1, 10⟩ s3 8 = false :=
  ⟨_, _, _, rfl, by decide, rfl, by decide, rfl, by decide, by decide⟩

/-- C21 fails for the duration: with limit 0 and duration 10, two connections of one IP pass the check; one
fails at time 0, the other at time 9. The first timer releases the IP at time 10; it fails again at once and
is blocked at time 10, and the second timer releases it at time 19, one unit before the duration is over. -/
theorem late_failure_shortens_block : ∃ s1 s2 : St Nat,
    run ⟨0, 10⟩ [.connect 7, .connect 7, .fail 7, .tick 9, .fail 7, .tick 1, .fire 10 7, .connect 7, .fail 7] start = some s1 ∧
    s1.now = 10 ∧ refuses ⟨0, 10⟩ s1 7 = true ∧
    run ⟨0, 10⟩ [.tick 9, .fire 19 7] s1 = some s2 ∧ s2.now = 19 ∧ refuses ⟨0, 10⟩ s2 7 = false :=
  ⟨_, _, rfl, rfl, by decide, rfl, rfl, by decide⟩

end Verif.Limits.Reconnect
