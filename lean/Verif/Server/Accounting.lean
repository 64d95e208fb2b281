import Verif.Common
/-!
# C43: connection accounting and the wait in `Shutdown`

Model of the counters `accepted`, `served`, `tunneling` (libcs/server/server.go:67-69, 331-336, libcs/server/conn.go:327-337) and
of the waiting loop of `Shutdown` (libcs/server/server.go:708-722). Connections are numbered in the order in which `Accept`
returned them. Every atomic operation is one step; steps of different goroutines interleave freely. What a handler
does in between is not modelled (it may take any time and end at any time; a panic is recovered by `handle`,
libcs/server/conn.go:98-112, and runs the same deferred functions).
-/
set_option linter.unusedSimpArgs false
set_option linter.unusedVariables false
namespace Verif.Server.Accounting

/-- Where the goroutine of a connection is. -/
inductive Ph where
  /-- returned by `Accept`, libcs/server/server.go:311, `accepted` not yet incremented -/
  | limbo
  /-- `handle` runs (public connection, probe, or a tunnel not yet counted), libcs/server/server.go:333-336 -/
  | active
  /-- in `handleTunnelLoop`, libcs/server/conn.go:337-347 -/
  | tunnel
  /-- `handleTunnelLoop` has decremented `tunneling`, `handle` has not ended yet -/
  | ended
  /-- `served` incremented -/
  | done
deriving DecidableEq, Repr

/-- The waiting loop of `Shutdown`, libcs/server/server.go:708-722; the argument is the loop variable. -/
inductive SD where
  | idle
  | readA (i : Nat)
  | readS (i a : Nat)
  | readT (i a s : Nat)
  /-- left the loop; `true`: by `break` -/
  | fin (early : Bool)
deriving DecidableEq, Repr

/-- `uint64` counters. -/
def M : Nat := 2 ^ 64

structure St where
  ph : Nat → Ph
  next : Nat
  accepted : Nat
  served : Nat
  tunneling : Nat
  sd : SD

def init : St := { ph := fun _ => .limbo, next := 0, accepted := 0, served := 0, tunneling := 0, sd := .idle }

def upd (f : Nat → Ph) (i : Nat) (v : Ph) : Nat → Ph := fun j => if j = i then v else f j

inductive Lbl where
  | accept | count (i : Nat) | up (i : Nat) | down (i : Nat) | serve (i : Nat) | sd
deriving DecidableEq

/-- libcs/server/server.go:711-721: the test and the next round. -/
def sdNext (i a s t : Nat) : SD :=
  if a = (s + t) % M then .fin true else if i + 1 < 40 then .readA (i + 1) else .fin false

inductive Step : St → Lbl → St → Prop
  /-- libcs/server/server.go:311 `l.Accept()` (listeners may deliver at any time; TCP and QUIC listeners stay open in `Shutdown`) -/
  | accept (s : St) : Step s .accept { s with ph := upd s.ph s.next .limbo, next := s.next + 1 }
  /-- libcs/server/server.go:331 -/
  | count (s : St) (i : Nat) (hi : i < s.next) (h : s.ph i = .limbo) :
      Step s (.count i) { s with ph := upd s.ph i .active, accepted := (s.accepted + 1) % M }
  /-- libcs/server/conn.go:337 -/
  | up (s : St) (i : Nat) (hi : i < s.next) (h : s.ph i = .active) :
      Step s (.up i) { s with ph := upd s.ph i .tunnel, tunneling := (s.tunneling + 1) % M }
  /-- libcs/server/conn.go:335 `atomic.AddUint64(&c.server.tunneling, ^uint64(0))` -/
  | down (s : St) (i : Nat) (hi : i < s.next) (h : s.ph i = .tunnel) :
      Step s (.down i) { s with ph := upd s.ph i .ended, tunneling := (s.tunneling + (M - 1)) % M }
  /-- libcs/server/server.go:334 -/
  | serve (s : St) (i : Nat) (hi : i < s.next) (h : s.ph i = .active ∨ s.ph i = .ended) :
      Step s (.serve i) { s with ph := upd s.ph i .done, served := (s.served + 1) % M }
  /-- libcs/server/server.go:682-708 -/
  | start (s : St) (h : s.sd = .idle) : Step s .sd { s with sd := .readA 0 }
  /-- libcs/server/server.go:709 -/
  | rdA (s : St) (i : Nat) (h : s.sd = .readA i) : Step s .sd { s with sd := .readS i s.accepted }
  /-- libcs/server/server.go:710 -/
  | rdS (s : St) (i a : Nat) (h : s.sd = .readS i a) : Step s .sd { s with sd := .readT i a s.served }
  /-- libcs/server/server.go:711-721 -/
  | rdT (s : St) (i a v : Nat) (h : s.sd = .readT i a v) : Step s .sd { s with sd := sdNext i a v s.tunneling }

inductive Steps : St → List Lbl → St → Prop
  | nil (s : St) : Steps s [] s
  | snoc {s s' s'' : St} {ls : List Lbl} {l : Lbl} : Steps s ls s' → Step s' l s'' → Steps s (ls ++ [l]) s''

/-! ## Specification -/

/-- How many of the connections so far satisfy `p`. -/
def cnt (p : Ph → Bool) (s : St) : Nat := ((List.range s.next).filter (fun i => p (s.ph i))).length

def isCounted : Ph → Bool | .limbo => false | _ => true
def isTunnel : Ph → Bool | .tunnel => true | _ => false
def isDone : Ph → Bool | .done => true | _ => false
/-- Counted and not yet served. -/
def inProgress : Ph → Bool | .active => true | .tunnel => true | .ended => true | _ => false
/-- In progress and not (or no longer) a tunnel: in particular every public connection being served. -/
def isBusy : Ph → Bool | .active => true | .ended => true | _ => false

/-! ## Lemmas -/

def b2n (b : Bool) : Nat := if b then 1 else 0

theorem filter_range_upd (p : Ph → Bool) (f : Nat → Ph) (i : Nat) (v : Ph) : ∀ n,
    ((List.range n).filter (fun j => p (upd f i v j))).length + (if i < n then b2n (p (f i)) else 0) =
    ((List.range n).filter (fun j => p (f j))).length + (if i < n then b2n (p v) else 0) := by
  intro n
  induction n with
  | zero => simp
  | succ n ih =>
    rw [List.range_succ, List.filter_append, List.filter_append, List.length_append, List.length_append]
    have e : ∀ (q : Nat → Bool), ([n].filter q).length = b2n (q n) := by
      intro q
      by_cases h : q n = true
      · simp [h, b2n]
      · simp [h, b2n]
    rw [e, e]
    by_cases h1 : i = n
    · subst h1
      rw [if_pos (by omega : i < i + 1)] at *
      rw [if_neg (by omega)] at ih
      rw [if_neg (by omega)] at ih
      rw [if_pos (by omega : i < i + 1)]
      have : upd f i v i = v := by simp [upd]
      rw [this]
      omega
    · have h2 : upd f i v n = f n := by simp [upd, Ne.symm h1]
      rw [h2]
      by_cases h3 : i < n
      · rw [if_pos h3] at ih
        rw [if_pos h3] at ih
        rw [if_pos (by omega : i < n + 1), if_pos (by omega : i < n + 1)]
        omega
      · rw [if_neg h3] at ih
        rw [if_neg h3] at ih
        rw [if_neg (by omega : ¬ i < n + 1), if_neg (by omega : ¬ i < n + 1)]
        omega

theorem cnt_upd (p : Ph → Bool) (s s' : St) (i : Nat) (v : Ph) (hi : i < s.next) (hn : s'.next = s.next)
    (hp : s'.ph = upd s.ph i v) : cnt p s' + b2n (p (s.ph i)) = cnt p s + b2n (p v) := by
  have := filter_range_upd p s.ph i v s.next
  rw [if_pos hi, if_pos hi] at this
  unfold cnt
  rw [hn, hp]
  exact this

theorem cnt_accept (p : Ph → Bool) (s s' : St) (hn : s'.next = s.next + 1) (hp : s'.ph = upd s.ph s.next .limbo) :
    cnt p s' = cnt p s + b2n (p .limbo) := by
  have := filter_range_upd p s.ph s.next .limbo s.next
  rw [if_neg (by omega), if_neg (by omega)] at this
  unfold cnt
  rw [Nat.add_zero, Nat.add_zero] at this
  rw [hn, hp, List.range_succ, List.filter_append, List.length_append, ← this]
  have h2 : upd s.ph s.next .limbo s.next = .limbo := by simp [upd]
  by_cases h : p .limbo = true
  · simp [h2, h, b2n]
  · simp [h2, h, b2n]

theorem cnt_same (p : Ph → Bool) (s s' : St) (hn : s'.next = s.next) (hp : s'.ph = s.ph) : cnt p s' = cnt p s := by
  unfold cnt; rw [hn, hp]

/-- The counters, modulo their width. -/
structure Inv (s : St) : Prop where
  acc : s.accepted = cnt isCounted s % M
  srv : s.served = cnt isDone s % M
  tun : s.tunneling = cnt isTunnel s % M
  sum : cnt isCounted s = cnt isDone s + cnt isTunnel s + cnt isBusy s
  prog : cnt inProgress s = cnt isTunnel s + cnt isBusy s
  le : cnt isCounted s ≤ s.next

theorem inv_init : Inv init := ⟨rfl, rfl, rfl, rfl, rfl, Nat.le_refl _⟩

theorem M_pos : 0 < M := by unfold M; decide

theorem mod_succ (a : Nat) : (a % M + 1) % M = (a + 1) % M := by
  rw [Nat.add_mod, Nat.mod_mod, ← Nat.add_mod]

theorem mod_pred (a : Nat) : ((a + 1) % M + (M - 1)) % M = a % M := by
  have := M_pos
  rw [Nat.add_mod, Nat.mod_mod, ← Nat.add_mod]
  have : a + 1 + (M - 1) = a + M := by omega
  rw [this, Nat.add_mod_right]

theorem inv_step {s s' : St} {l : Lbl} (h : Inv s) (st : Step s l s') : Inv s' := by
  obtain ⟨ha, hs, ht, hsum, hp, hle⟩ := h
  cases st with
  | accept =>
    have e := fun p => cnt_accept p s { s with ph := upd s.ph s.next .limbo, next := s.next + 1 } rfl rfl
    have e1 := e isCounted; have e2 := e isDone; have e3 := e isTunnel; have e4 := e isBusy; have e5 := e inProgress
    simp only [b2n, isCounted, isDone, isTunnel, isBusy, inProgress, Bool.false_eq_true, if_false, Nat.add_zero] at e1 e2 e3 e4 e5
    refine ⟨?_, ?_, ?_, ?_, ?_, ?_⟩
    · rw [e1]; exact ha
    · rw [e2]; exact hs
    · rw [e3]; exact ht
    · omega
    · omega
    · rw [e1]; exact Nat.le_succ_of_le hle
  | count i hi hph =>
    have e := fun p => cnt_upd p s { s with ph := upd s.ph i .active, accepted := (s.accepted + 1) % M } i .active hi rfl rfl
    have e1 := e isCounted; have e2 := e isDone; have e3 := e isTunnel; have e4 := e isBusy; have e5 := e inProgress
    have hc : cnt isCounted s < s.next := by
      unfold cnt
      have h1 : (List.range s.next).filter (fun j => isCounted (s.ph j)) ≠ List.range s.next := by
        intro h2
        have h3 : i ∈ (List.range s.next).filter (fun j => isCounted (s.ph j)) := by rw [h2]; exact List.mem_range.2 hi
        have h4 := (List.mem_filter.1 h3).2
        rw [hph] at h4; cases h4
      have h2 := List.length_filter_le (fun j => isCounted (s.ph j)) (List.range s.next)
      have h3 : ((List.range s.next).filter (fun j => isCounted (s.ph j))).length ≠ (List.range s.next).length := by
        intro h4
        exact h1 (List.Sublist.eq_of_length List.filter_sublist h4)
      rw [List.length_range] at h2 h3
      omega
    simp only [hph, b2n, isCounted, isDone, isTunnel, isBusy, inProgress, Bool.false_eq_true, if_false, if_true, Nat.add_zero] at e1 e2 e3 e4 e5
    refine ⟨?_, ?_, ?_, ?_, ?_, ?_⟩
    · rw [e1]; dsimp only; rw [ha, mod_succ]
    · rw [e2]; exact hs
    · rw [e3]; exact ht
    · omega
    · omega
    · rw [e1]; exact hc
  | up i hi hph =>
    have e := fun p => cnt_upd p s { s with ph := upd s.ph i .tunnel, tunneling := (s.tunneling + 1) % M } i .tunnel hi rfl rfl
    have e1 := e isCounted; have e2 := e isDone; have e3 := e isTunnel; have e4 := e isBusy; have e5 := e inProgress
    simp only [hph, b2n, isCounted, isDone, isTunnel, isBusy, inProgress, Bool.false_eq_true, if_false, if_true, Nat.add_zero, Nat.add_right_cancel_iff] at e1 e2 e3 e4 e5
    refine ⟨?_, ?_, ?_, ?_, ?_, ?_⟩
    · rw [e1]; exact ha
    · rw [e2]; exact hs
    · rw [e3]; dsimp only; rw [ht, mod_succ]
    · omega
    · omega
    · rw [e1]; exact hle
  | down i hi hph =>
    have e := fun p => cnt_upd p s { s with ph := upd s.ph i .ended, tunneling := (s.tunneling + (M - 1)) % M } i .ended hi rfl rfl
    have e1 := e isCounted; have e2 := e isDone; have e3 := e isTunnel; have e4 := e isBusy; have e5 := e inProgress
    simp only [hph, b2n, isCounted, isDone, isTunnel, isBusy, inProgress, Bool.false_eq_true, if_false, if_true, Nat.add_zero, Nat.add_right_cancel_iff] at e1 e2 e3 e4 e5
    refine ⟨?_, ?_, ?_, ?_, ?_, ?_⟩
    · rw [e1]; exact ha
    · rw [e2]; exact hs
    · obtain ⟨x, hx⟩ : ∃ x, x = cnt isTunnel { s with ph := upd s.ph i .ended, tunneling := (s.tunneling + (M - 1)) % M } := ⟨_, rfl⟩
      rw [← hx] at e3 ⊢
      show (s.tunneling + (M - 1)) % M = x % M
      rw [ht, ← e3, mod_pred]
    · omega
    · omega
    · rw [e1]; exact hle
  | serve i hi hph =>
    have e := fun p => cnt_upd p s { s with ph := upd s.ph i .done, served := (s.served + 1) % M } i .done hi rfl rfl
    have e1 := e isCounted; have e2 := e isDone; have e3 := e isTunnel; have e4 := e isBusy; have e5 := e inProgress
    rcases hph with hph | hph
    all_goals
      simp only [hph, b2n, isCounted, isDone, isTunnel, isBusy, inProgress, Bool.false_eq_true, if_false, if_true, Nat.add_zero, Nat.add_right_cancel_iff] at e1 e2 e3 e4 e5
      refine ⟨?_, ?_, ?_, ?_, ?_, ?_⟩
      · rw [e1]; exact ha
      · rw [e2]; dsimp only; rw [hs, mod_succ]
      · rw [e3]; exact ht
      · omega
      · omega
      · rw [e1]; exact hle
  | start => exact ⟨ha, hs, ht, hsum, hp, hle⟩
  | rdA => exact ⟨ha, hs, ht, hsum, hp, hle⟩
  | rdS => exact ⟨ha, hs, ht, hsum, hp, hle⟩
  | rdT => exact ⟨ha, hs, ht, hsum, hp, hle⟩

theorem inv_steps {s s' : St} {ls : List Lbl} (h : Inv s) (st : Steps s ls s') : Inv s' := by
  induction st with
  | nil => exact h
  | snoc _ h2 ih => exact inv_step ih h2

theorem next_mono_step {s s' : St} {l : Lbl} (st : Step s l s') : s.next ≤ s'.next ∧ cnt isDone s ≤ cnt isDone s' := by
  cases st with
  | accept =>
    have e := cnt_accept isDone s { s with ph := upd s.ph s.next .limbo, next := s.next + 1 } rfl rfl
    exact ⟨Nat.le_succ _, by rw [e]; omega⟩
  | count i hi hph =>
    have e := cnt_upd isDone s { s with ph := upd s.ph i .active, accepted := (s.accepted + 1) % M } i .active hi rfl rfl
    simp only [hph, b2n, isDone, Bool.false_eq_true, if_false, Nat.add_zero] at e
    exact ⟨Nat.le_refl _, by rw [e]; omega⟩
  | up i hi hph =>
    have e := cnt_upd isDone s { s with ph := upd s.ph i .tunnel, tunneling := (s.tunneling + 1) % M } i .tunnel hi rfl rfl
    simp only [hph, b2n, isDone, Bool.false_eq_true, if_false, Nat.add_zero] at e
    exact ⟨Nat.le_refl _, by rw [e]; omega⟩
  | down i hi hph =>
    have e := cnt_upd isDone s { s with ph := upd s.ph i .ended, tunneling := (s.tunneling + (M - 1)) % M } i .ended hi rfl rfl
    simp only [hph, b2n, isDone, Bool.false_eq_true, if_false, Nat.add_zero] at e
    exact ⟨Nat.le_refl _, by rw [e]; omega⟩
  | serve i hi hph =>
    have e := cnt_upd isDone s { s with ph := upd s.ph i .done, served := (s.served + 1) % M } i .done hi rfl rfl
    have hz : b2n (isDone (s.ph i)) = 0 := by rcases hph with h | h <;> rw [h] <;> rfl
    rw [hz] at e
    exact ⟨Nat.le_refl _, by omega⟩
  | start => exact ⟨Nat.le_refl _, Nat.le_refl _⟩
  | rdA => exact ⟨Nat.le_refl _, Nat.le_refl _⟩
  | rdS => exact ⟨Nat.le_refl _, Nat.le_refl _⟩
  | rdT => exact ⟨Nat.le_refl _, Nat.le_refl _⟩

/-- What the values read so far in the current round say, if no connection was counted meanwhile. -/
def RInv (s : St) : Prop :=
  match s.sd with
  | .readS _ a => a = s.accepted
  | .readT _ a v => a = s.accepted ∧ ∃ d, d ≤ cnt isDone s ∧ v = d % M
  | _ => True

theorem accepted_same {s s' : St} {l : Lbl} (st : Step s l s') (hl : ∀ i, l ≠ .count i) : s'.accepted = s.accepted := by
  cases st with
  | count i => exact absurd rfl (hl i)
  | accept => rfl
  | up => rfl
  | down => rfl
  | serve => rfl
  | start => rfl
  | rdA => rfl
  | rdS => rfl
  | rdT => rfl

theorem rinv_frame {s s' : St} (h : RInv s) (hsd : s'.sd = s.sd) (ha : s'.accepted = s.accepted)
    (hd : cnt isDone s ≤ cnt isDone s') : RInv s' := by
  unfold RInv at *
  rw [hsd, ha]
  split at h
  · exact h
  · obtain ⟨h1, d, h2, h3⟩ := h
    exact ⟨h1, d, Nat.le_trans h2 hd, h3⟩
  · trivial

theorem rinv_step {s s' : St} {l : Lbl} (hi : Inv s) (h : RInv s) (st : Step s l s') (hl : ∀ i, l ≠ .count i) : RInv s' := by
  have ha := accepted_same st hl
  have hd := (next_mono_step st).2
  cases st with
  | count i => exact absurd rfl (hl i)
  | accept => exact rinv_frame h rfl ha hd
  | up => exact rinv_frame h rfl ha hd
  | down => exact rinv_frame h rfl ha hd
  | serve => exact rinv_frame h rfl ha hd
  | start => trivial
  | rdA i hs => exact rfl
  | rdS i a hs =>
    unfold RInv at h
    rw [hs] at h
    exact ⟨h, cnt isDone s, Nat.le_refl _, hi.srv⟩
  | rdT i a v hs =>
    unfold RInv sdNext
    dsimp only
    split
    · rename_i h1; split at h1 <;> (try split at h1) <;> cases h1
    · rename_i h1; split at h1 <;> (try split at h1) <;> cases h1
    · trivial

theorem rinv_steps {s s' : St} {ls : List Lbl} (hi : Inv s) (h : RInv s) (st : Steps s ls s') (hl : ∀ i, .count i ∉ ls) :
    RInv s' := by
  induction st with
  | nil => exact h
  | snoc h1 h2 ih =>
    exact rinv_step (inv_steps hi h1) (ih (fun i hm => hl i (by simp [hm]))) h2 (fun i he => hl i (by simp [he]))

theorem cnt_zero {p : Ph → Bool} {s : St} (h : cnt p s = 0) : ∀ i, i < s.next → p (s.ph i) = false := by
  intro i hi
  cases hp : p (s.ph i) with
  | false => rfl
  | true =>
    have h1 : i ∈ (List.range s.next).filter (fun j => p (s.ph j)) := List.mem_filter.2 ⟨List.mem_range.2 hi, hp⟩
    rw [List.eq_nil_of_length_eq_zero h] at h1
    cases h1

theorem cnt_eq_zero {p : Ph → Bool} {s : St} (h : ∀ i, i < s.next → p (s.ph i) = false) : cnt p s = 0 := by
  unfold cnt
  rw [List.filter_eq_nil_iff.2]
  · rfl
  · intro i hi
    rw [h i (List.mem_range.1 hi)]
    simp

/-! ## Theorems -/

/-- C43, for every interleaving: the counters are the numbers they stand for (below 2^64 connections): every
connection counted is served or in progress, and `tunneling` is the number of live tunnels. -/
theorem counters_balance (s : St) (ls : List Lbl) (h : Steps init ls s) (hn : s.next < M) :
    s.accepted = s.served + cnt inProgress s ∧ s.tunneling = cnt isTunnel s ∧ s.served = cnt isDone s ∧
    s.accepted ≤ s.next := by
  obtain ⟨ha, hs, ht, hsum, hp, hle⟩ := inv_steps inv_init h
  have h1 : cnt isCounted s % M = cnt isCounted s := Nat.mod_eq_of_lt (by omega)
  have h2 : cnt isDone s % M = cnt isDone s := Nat.mod_eq_of_lt (by omega)
  have h3 : cnt isTunnel s % M = cnt isTunnel s := Nat.mod_eq_of_lt (by omega)
  rw [ha, hs, ht, h1, h2, h3]
  omega

/-- C43: beyond 2^64 connections the same holds modulo the width of the counters; in particular `tunneling`, which
goes up and down, never drifts. -/
theorem counters_balance_mod (s : St) (ls : List Lbl) (h : Steps init ls s) :
    s.accepted = (s.served + cnt inProgress s) % M ∧ s.tunneling = cnt isTunnel s % M := by
  obtain ⟨ha, hs, ht, hsum, hp, hle⟩ := inv_steps inv_init h
  refine ⟨?_, ht⟩
  rw [ha, hs, hsum, hp]
  conv => rhs; rw [Nat.add_mod, Nat.mod_mod, ← Nat.add_mod]
  rw [Nat.add_assoc]

/-- C43: once every connection has ended, the counters balance. -/
theorem all_ended_balances (s : St) (ls : List Lbl) (h : Steps init ls s) (hn : s.next < M)
    (hd : ∀ i, i < s.next → s.ph i = .done) : s.accepted = s.next ∧ s.served = s.next ∧ s.tunneling = 0 := by
  obtain ⟨h1, h2, h3, -⟩ := counters_balance s ls h hn
  have e1 : cnt inProgress s = 0 := cnt_eq_zero (fun i hi => by rw [hd i hi]; rfl)
  have e2 : cnt isTunnel s = 0 := cnt_eq_zero (fun i hi => by rw [hd i hi]; rfl)
  have e3 : cnt isDone s = s.next := by
    unfold cnt
    rw [List.filter_eq_self.2]
    · exact List.length_range
    · intro i hi; rw [hd i (List.mem_range.1 hi)]; rfl
  omega

/-- How many steps the waiting loop can still take. -/
def sdLeft : SD → Nat
  | .idle => 121
  | .readA i => 3 * (40 - i)
  | .readS i _ => 3 * (40 - i) - 1
  | .readT i _ _ => 3 * (40 - i) - 2
  | .fin _ => 0

def sdOk : SD → Prop
  | .readA i => i < 40
  | .readS i _ => i < 40
  | .readT i _ _ => i < 40
  | _ => True

theorem sd_left_step {s s' : St} {l : Lbl} (st : Step s l s') (h : sdOk s.sd) :
    sdOk s'.sd ∧ sdLeft s'.sd + (if l = .sd then 1 else 0) ≤ sdLeft s.sd := by
  cases st with
  | accept => exact ⟨h, by simp⟩
  | count => exact ⟨h, by simp⟩
  | up => exact ⟨h, by simp⟩
  | down => exact ⟨h, by simp⟩
  | serve => exact ⟨h, by simp⟩
  | start hs => rw [hs]; exact ⟨by simp [sdOk], by simp [sdLeft]⟩
  | rdA i hs => rw [hs] at h ⊢; simp only [sdOk] at h; exact ⟨h, by simp [sdLeft]; omega⟩
  | rdS i a hs => rw [hs] at h ⊢; simp only [sdOk] at h; exact ⟨h, by simp [sdLeft]; omega⟩
  | rdT i a v hs =>
    rw [hs] at h ⊢
    simp only [sdOk] at h
    dsimp only
    unfold sdNext
    split
    · exact ⟨trivial, by simp [sdLeft]; omega⟩
    · split
      · exact ⟨by simp [sdOk]; omega, by simp [sdLeft]; omega⟩
      · exact ⟨trivial, by simp [sdLeft]; omega⟩

/-- Steps the waiting loop has taken (not determined once it stopped early). -/
def sdUsed : SD → Option Nat
  | .idle => some 0
  | .readA i => some (1 + 3 * i)
  | .readS i _ => some (2 + 3 * i)
  | .readT i _ _ => some (3 + 3 * i)
  | .fin false => some 121
  | .fin true => none

/-- C43: the wait gives up, without having seen the server idle, only after forty full rounds (one second each). -/
theorem gives_up_after_forty (s : St) (ls : List Lbl) (h : Steps init ls s) (hf : s.sd = .fin false) :
    ls.count .sd = 121 := by
  have key : ∀ s ls, Steps init ls s → sdOk s.sd ∧ ∀ n, sdUsed s.sd = some n → ls.count .sd = n := by
    intro s ls hst
    generalize h0 : init = s0 at hst
    induction hst with
    | nil => subst h0; exact ⟨trivial, by simp [sdUsed, init]⟩
    | @snoc s s' ls l h1 h2 ih =>
      obtain ⟨i1, i2⟩ := ih
      refine ⟨(sd_left_step h2 i1).1, ?_⟩
      intro n hn
      rw [List.count_append]
      cases h2 with
      | accept => simpa using i2 n hn
      | count => simpa using i2 n hn
      | up => simpa using i2 n hn
      | down => simpa using i2 n hn
      | serve => simpa using i2 n hn
      | start hs =>
        rw [hs] at i2
        simp only [sdUsed, Option.some.injEq, forall_eq'] at i2 hn
        simp [i2, ← hn]
      | rdA i hs =>
        rw [hs] at i2
        simp only [sdUsed, Option.some.injEq, forall_eq'] at i2 hn
        simp [i2, ← hn]; omega
      | rdS i a hs =>
        rw [hs] at i2
        simp only [sdUsed, Option.some.injEq, forall_eq'] at i2 hn
        simp [i2, ← hn]; omega
      | rdT i a v hs =>
        rw [hs] at i2 i1
        simp only [sdUsed, Option.some.injEq, forall_eq'] at i2
        simp only [sdOk] at i1
        unfold sdNext at hn
        split at hn
        · simp [sdUsed] at hn
        · split at hn
          · simp only [sdUsed, Option.some.injEq] at hn; simp [i2, ← hn]; omega
          · simp only [sdUsed, Option.some.injEq] at hn; simp [i2, ← hn]; omega
  exact (key s ls h).2 121 (by rw [hf]; rfl)

/-- C43: the wait of `Shutdown` ends: in no execution, however the other goroutines behave, does it take more than 40
rounds (121 steps). -/
theorem shutdown_wait_bounded (s : St) (ls : List Lbl) (h : Steps init ls s) : ls.count .sd ≤ 121 := by
  have key : ∀ s0 s ls, sdOk s0.sd → Steps s0 ls s → sdOk s.sd ∧ sdLeft s.sd + ls.count .sd ≤ sdLeft s0.sd := by
    intro s0 s ls h0 hst
    induction hst with
    | nil => exact ⟨h0, by simp⟩
    | snoc h1 h2 ih =>
      obtain ⟨i1, i2⟩ := ih
      obtain ⟨i3, i4⟩ := sd_left_step h2 i1
      refine ⟨i3, ?_⟩
      rw [List.count_append]
      rename_i ls' l
      have : [l].count .sd = if l = .sd then 1 else 0 := by
        by_cases hl : l = .sd
        · simp [hl]
        · simp [hl]
      rw [this]; omega
  have := (key init s ls trivial h).2
  simp only [init, sdLeft] at this
  omega

/-- C43: the wait is never left while the loop could still act (it never blocks). -/
theorem shutdown_never_stuck (s : St) (h : ∀ b, s.sd ≠ .fin b) : ∃ s', Step s .sd s' := by
  cases hs : s.sd with
  | idle => exact ⟨_, .start s hs⟩
  | readA i => exact ⟨_, .rdA s i hs⟩
  | readS i a => exact ⟨_, .rdS s i a hs⟩
  | readT i a v => exact ⟨_, .rdT s i a v hs⟩
  | fin b => exact absurd hs (h b)

/-- C43: when `Shutdown` stops waiting early, no counted connection is still being served — provided no connection
was counted (libcs/server/server.go:331) since the beginning of the round. The order of the three loads matters here. -/
theorem early_stop_is_idle_partial (s0 s s' : St) (ls0 ls : List Lbl) (i : Nat) (h0 : Steps init ls0 s0) (hs0 : s0.sd = .readA i)
    (h : Steps s0 ls s) (hl : ∀ i, .count i ∉ ls) (st : Step s .sd s') (he : s'.sd = .fin true) (hn : s'.next < M) :
    ∀ i, i < s'.next → s'.ph i = .limbo ∨ s'.ph i = .tunnel ∨ s'.ph i = .done := by
  have hi0 := inv_steps inv_init h0
  have hi := inv_steps hi0 h
  have hr := rinv_steps hi0 (by unfold RInv; rw [hs0]; trivial) h hl
  have hb : cnt isBusy s = 0 ∧ s'.next = s.next ∧ s'.ph = s.ph := by
    cases st with
    | start hs => cases he
    | rdA j hs => cases he
    | rdS j a hs => cases he
    | rdT j a v hs =>
      refine ⟨?_, rfl, rfl⟩
      unfold RInv at hr
      rw [hs] at hr
      dsimp only at hr he hn
      obtain ⟨h1, d, h2, h3⟩ := hr
      unfold sdNext at he
      have h4 : a = (v + s.tunneling) % M := by
        by_cases h5 : a = (v + s.tunneling) % M
        · exact h5
        · rw [if_neg h5] at he; split at he <;> cases he
      obtain ⟨ha, hsv, ht, hsum, hp, hle⟩ := hi
      rw [h1, ha, h3, ht, Nat.mod_eq_of_lt (by omega : cnt isCounted s < M), Nat.mod_eq_of_lt (by omega : d < M),
        Nat.mod_eq_of_lt (by omega : cnt isTunnel s < M), Nat.mod_eq_of_lt (by omega : d + cnt isTunnel s < M)] at h4
      omega
  obtain ⟨h1, h2, h3⟩ := hb
  intro j hj
  have := cnt_zero h1 j (by omega)
  rw [h3]
  cases hp : s.ph j <;> rw [hp] at this <;> simp_all [isBusy]

/-- C43: conversely, a round during which nothing happens and every counted connection is a tunnel or served ends the
wait. -/
theorem idle_round_stops (s : St) (ls : List Lbl) (i : Nat) (h : Steps init ls s) (hs : s.sd = .readA i)
    (hi : ∀ j, j < s.next → s.ph j = .limbo ∨ s.ph j = .tunnel ∨ s.ph j = .done) :
    ∃ s', Steps s [.sd, .sd, .sd] s' ∧ s'.sd = .fin true := by
  have s1 := Steps.snoc (Steps.nil s) (Step.rdA s i hs)
  have s2 := Steps.snoc s1 (Step.rdS _ i s.accepted rfl)
  have s3 := Steps.snoc s2 (Step.rdT _ i s.accepted s.served rfl)
  refine ⟨_, s3, ?_⟩
  show sdNext i s.accepted s.served s.tunneling = .fin true
  obtain ⟨ha, hsv, ht, hsum, hp, hle⟩ := inv_steps inv_init h
  have hb : cnt isBusy s = 0 := cnt_eq_zero (fun j hj => by rcases hi j hj with h | h | h <;> rw [h] <;> rfl)
  unfold sdNext
  rw [if_pos]
  rw [ha, hsv, ht, ← Nat.add_mod, hsum, hb, Nat.add_zero]

/-- Without the proviso it is false: a tunnel that is accepted and counted between the first and the last load makes
`Shutdown` stop waiting although a public connection (number 0) is being served. TCP and QUIC listeners are still open
then (only three listeners are closed, libcs/server/server.go:693-700). -/
theorem late_tunnel_ends_wait : ∃ ls s, Steps init ls s ∧ s.sd = .fin true ∧ s.ph 0 = .active ∧ 0 < s.next := by
  have a0 := Steps.snoc (Steps.nil init) (Step.accept init)
  have a1 := Steps.snoc a0 (Step.count _ 0 (by decide) (by decide))
  have a2 := Steps.snoc a1 (Step.start _ rfl)
  have a3 := Steps.snoc a2 (Step.rdA _ 0 rfl)
  have a4 := Steps.snoc a3 (Step.rdS _ 0 _ rfl)
  have a5 := Steps.snoc a4 (Step.accept _)
  have a6 := Steps.snoc a5 (Step.count _ 1 (by decide) (by decide))
  have a7 := Steps.snoc a6 (Step.up _ 1 (by decide) (by decide))
  have a8 := Steps.snoc a7 (Step.rdT _ 0 _ _ rfl)
  exact ⟨_, _, a8, by decide +kernel, by decide +kernel, by decide +kernel⟩

/-- A case that meets the hypotheses of `early_stop_is_idle_partial`: one served connection, one live tunnel. -/
example : ∃ ls0 ls s0 s s', Steps init ls0 s0 ∧ s0.sd = .readA 0 ∧ Steps s0 ls s ∧ (∀ i, .count i ∉ ls) ∧
    Step s .sd s' ∧ s'.sd = .fin true ∧ s'.next = 2 ∧ s'.ph 0 = .done ∧ s'.ph 1 = .tunnel := by
  have a0 := Steps.snoc (Steps.nil init) (Step.accept init)
  have a1 := Steps.snoc a0 (Step.count _ 0 (by decide) (by decide))
  have a2 := Steps.snoc a1 (Step.accept _)
  have a3 := Steps.snoc a2 (Step.count _ 1 (by decide) (by decide))
  have a4 := Steps.snoc a3 (Step.up _ 1 (by decide) (by decide))
  have a5 := Steps.snoc a4 (Step.start _ rfl)
  refine ⟨_, _, _, _, _, a5, rfl, Steps.snoc (Steps.snoc (Steps.snoc (Steps.nil _) (Step.serve _ 0 ?_ ?_)) (Step.rdA _ 0 rfl))
    (Step.rdS _ 0 _ rfl), by simp, Step.rdT _ 0 _ _ rfl, by decide +kernel, by decide +kernel, by decide +kernel, by decide +kernel⟩
  · decide
  · decide

end Verif.Server.Accounting
