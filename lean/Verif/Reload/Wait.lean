import Verif.Common
set_option linter.unusedSimpArgs false
set_option linter.unusedVariables false
/-!
# C64: what the end of a reload means
(libcs/client/client.go:899-992 `ReloadServices`; libcs/client/conn.go:253-268; sync.WaitGroup)

`ReloadServices` writes the new services to every tunnel, counts each write in a wait group, and waits until the counter
is zero; every answer takes one off the counter. Events interleave arbitrarily; reloads, failed ones too, may follow one
another.
-/
namespace Verif.Reload.Wait

/-- Where `ReloadServices` is. -/
inductive Ph where
  /-- not running -/
  | idle
  /-- about to write to the first of these tunnels -/
  | sending (todo : List Nat)
  /-- has written, `reloadWaitGroup.Add(1)` comes next -/
  | adding (todo : List Nat)
  /-- `reloadWaitGroup.Wait()` -/
  | waiting
  /-- the timer ended the process -/
  | exited
deriving DecidableEq, Repr

structure St where
  ph : Ph
  /-- number of reloads begun: the generation of `Client.services` -/
  gen : Nat
  /-- `Client.tunnels`, and those of them whose connection lives -/
  tun : List Nat
  alive : List Nat
  /-- the generation of `conn.services` -/
  has : Nat → Nat
  /-- tunnels that were written to and have not answered (one entry for each write) -/
  told : List Nat
  /-- the counter of `reloadWaitGroup` -/
  wg : Int
  /-- results of the reloads so far -/
  results : List Bool

def init : St := { ph := .idle, gen := 0, tun := [], alive := [], has := fun _ => 0, told := [], wg := 0, results := [] }

inductive Ev where
  /-- a new tunnel is ready (libcs/client/client.go:709-715) -/
  | opened (t : Nat)
  /-- a connection ends; its reader removes the tunnel (needs the lock that a reload holds) -/
  | die (t : Nat)
  | removed (t : Nat)
  /-- a reload begins; the tunnels in the order of the range loop -/
  | begin (order : List Nat)
  | writeOk
  | writeErr
  | add
  /-- the counter is zero: `Wait` returns -/
  | wake
  | timeout
  /-- a tunnel reads the services signal; the error signal -/
  | accepted (t : Nat)
  | refused (t : Nat)
  /-- a connection that is not a tunnel yet reads an error signal -/
  | stray
deriving DecidableEq, Repr

def upd (f : Nat → Nat) (t x : Nat) : Nat → Nat := fun y => if y = t then x else f y

/-- The reader of a connection ends: it returned, or it panicked (libcs/client/client.go:650-657 recovers). -/
def kill (s : St) (t : Nat) : St := { s with alive := s.alive.filter (· ≠ t) }

/-- `reloading` is set (libcs/client/client.go:900-905). -/
def Ph.reloading : Ph → Bool
  | .idle => false
  | .exited => false
  | _ => true

def step (s : St) : Ev → St
  | .opened t =>
    if s.ph = .idle ∧ t ∉ s.tun ∧ t ∉ s.told then
      { s with tun := t :: s.tun, alive := t :: s.alive, has := upd s.has t s.gen }
    else s
  | .die t => kill s t
  | .removed t => if s.ph = .idle ∧ t ∉ s.alive then { s with tun := s.tun.filter (· ≠ t) } else s
  -- libcs/client/client.go:968-976
  | .begin order => if s.ph = .idle ∧ order.Perm s.tun then { s with ph := .sending order, gen := s.gen + 1 } else s
  -- libcs/client/client.go:977
  | .writeOk => match s.ph with
    | .sending (t :: r) => { s with ph := .adding r, told := s.told ++ [t] }
    | .sending [] => { s with ph := .waiting }
    | _ => s
  -- libcs/client/client.go:978-980
  | .writeErr => match s.ph with
    | .sending (_ :: _) => { s with ph := .idle, results := s.results ++ [false] }
    | _ => s
  -- libcs/client/client.go:982
  | .add => match s.ph with
    | .adding r => { s with ph := .sending r, wg := s.wg + 1 }
    | _ => s
  -- libcs/client/client.go:988-990
  | .wake => if s.ph = .waiting ∧ s.wg = 0 then { s with ph := .idle, results := s.results ++ [true] } else s
  -- libcs/client/client.go:984-987
  | .timeout => if s.ph = .waiting then { s with ph := .exited } else s
  -- libcs/client/conn.go:253-258; `Done` panics if the counter becomes negative, after it has changed it
  | .accepted t =>
    if t ∈ s.told ∧ t ∈ s.alive ∧ s.ph ≠ .exited then
      let s := { s with told := s.told.erase t, has := upd s.has t s.gen, wg := s.wg - 1 }
      if s.wg < 0 then kill s t else s
    else s
  -- libcs/client/conn.go:259-268
  | .refused t =>
    if t ∈ s.told ∧ t ∈ s.alive ∧ s.ph ≠ .exited then
      if s.ph.reloading then kill { s with told := s.told.erase t, wg := s.wg - 1 } t
      else kill s t
    else s
  | .stray => if s.ph.reloading then { s with wg := s.wg - 1 } else s

def run (s : St) : List Ev → St
  | [] => s
  | e :: es => run (step s e) es

/-! ## Specification -/

/-- Every tunnel of the client uses the services of the last reload, or its connection is gone. -/
def Updated (s : St) : Prop := ∀ t ∈ s.tun, s.has t = s.gen ∨ t ∉ s.alive

/-- No connection attempt fails while the client reloads. -/
def NoStray (es : List Ev) : Prop := Ev.stray ∉ es

/-- Some tunnel was told and can no longer answer. -/
def Lost (s : St) : Prop := ∃ t ∈ s.told, t ∉ s.alive

/-! ## Proofs -/

def Ph.pending : Ph → Int
  | .adding _ => 1
  | _ => 0

/-- The tunnels still to be written to. -/
def Ph.todo : Ph → List Nat
  | .sending l => l
  | .adding l => l
  | _ => []

structure Inv (s : St) : Prop where
  bal : s.wg + s.ph.pending = s.told.length
  upd : s.ph.reloading = true → ∀ t ∈ s.tun, t ∈ s.ph.todo ∨ t ∈ s.told ∨ s.has t = s.gen ∨ t ∉ s.alive

theorem inv_init : Inv init := ⟨rfl, fun h => by cases h⟩

theorem mem_kill {s : St} {t x : Nat} : x ∈ (kill s t).alive ↔ x ∈ s.alive ∧ x ≠ t := by simp [kill]

theorem inv_kill {s : St} (h : Inv s) (t : Nat) : Inv (kill s t) := by
  refine ⟨h.bal, fun hr x hx => ?_⟩
  rcases h.upd hr x hx with h1 | h1 | h1 | h1
  · exact .inl h1
  · exact .inr (.inl h1)
  · exact .inr (.inr (.inl h1))
  · exact .inr (.inr (.inr (fun h2 => h1 (mem_kill.mp h2).1)))

theorem upd_self (f : Nat → Nat) (t x : Nat) : Wait.upd f t x t = x := by simp [Wait.upd]
theorem upd_ne (f : Nat → Nat) {t y : Nat} (x : Nat) (h : y ≠ t) : Wait.upd f t x y = f y := by simp [Wait.upd, h]

theorem erase_len {l : List Nat} {t : Nat} (h : t ∈ l) : ((l.erase t).length : Int) = (l.length : Int) - 1 := by
  have := List.length_erase_of_mem h
  have h2 : 0 < l.length := List.length_pos_of_mem h
  omega

theorem inv_step {s : St} (h : Inv s) (e : Ev) (he : e ≠ .stray) : Inv (step s e) := by
  cases e with
  | stray => exact absurd rfl he
  | die t => exact inv_kill h t
  | opened t =>
    simp only [step]
    split
    · rename_i hc
      exact ⟨h.bal, fun hr => by have : s.ph.reloading = true := hr; rw [hc.1] at this; cases this⟩
    · exact h
  | removed t =>
    simp only [step]
    split
    · exact ⟨h.bal, fun hr x hx => h.upd hr x (List.mem_filter.mp hx).1⟩
    · exact h
  | begin o =>
    simp only [step]
    split
    · rename_i hc
      refine ⟨?_, fun _ x hx => .inl (hc.2.mem_iff.mpr hx)⟩
      have := h.bal
      rw [hc.1] at this
      exact this
    · exact h
  | writeOk =>
    simp only [step]
    split
    · rename_i t r hp
      have hb := h.bal
      have hu := h.upd (by rw [hp]; rfl)
      rw [hp] at hb hu
      refine ⟨?_, fun _ x hx => ?_⟩
      · simp only [Ph.pending, List.length_append, List.length_cons, List.length_nil] at hb ⊢
        omega
      · rcases hu x hx with h1 | h1 | h1
        · rcases List.mem_cons.mp h1 with rfl | h1
          · exact .inr (.inl (by simp))
          · exact .inl h1
        · exact .inr (.inl (List.mem_append_left _ h1))
        · exact .inr (.inr h1)
    · rename_i hp
      have hb := h.bal
      have hu := h.upd (by rw [hp]; rfl)
      rw [hp] at hb hu
      exact ⟨hb, fun _ x hx => hu x hx⟩
    · exact h
  | writeErr =>
    simp only [step]
    split
    · rename_i t r hp
      have hb := h.bal
      rw [hp] at hb
      exact ⟨hb, fun hr => by cases hr⟩
    · exact h
  | add =>
    simp only [step]
    split
    · rename_i r hp
      have hb := h.bal
      have hu := h.upd (by rw [hp]; rfl)
      rw [hp] at hb hu
      refine ⟨?_, fun _ x hx => hu x hx⟩
      simp only [Ph.pending] at hb ⊢
      omega
    · exact h
  | wake =>
    simp only [step]
    split
    · rename_i hc
      have hb := h.bal
      rw [hc.1] at hb
      exact ⟨hb, fun hr => by cases hr⟩
    · exact h
  | timeout =>
    simp only [step]
    split
    · rename_i hc
      have hb := h.bal
      rw [hc] at hb
      exact ⟨hb, fun hr => by cases hr⟩
    · exact h
  | accepted t =>
    simp only [step]
    split
    · rename_i hc
      have hq : Inv { s with told := s.told.erase t, has := Wait.upd s.has t s.gen, wg := s.wg - 1 } := by
        refine ⟨?_, fun hr x hx => ?_⟩
        · dsimp only
          rw [erase_len hc.1]
          have := h.bal
          omega
        · dsimp only
          by_cases e : x = t
          · subst e; rw [upd_self]; exact .inr (.inr (.inl rfl))
          · rw [upd_ne _ _ e]
            rcases h.upd hr x hx with h1 | h1 | h1
            · exact .inl h1
            · exact .inr (.inl ((List.mem_erase_of_ne e).mpr h1))
            · exact .inr (.inr h1)
      split
      · exact inv_kill hq t
      · exact hq
    · exact h
  | refused t =>
    simp only [step]
    split
    · rename_i hc
      split
      · refine ⟨?_, fun hr x hx => ?_⟩
        · show s.wg - 1 + s.ph.pending = ((s.told.erase t).length : Int)
          rw [erase_len hc.1]
          have := h.bal
          omega
        · by_cases e : x = t
          · subst e
            exact .inr (.inr (.inr (fun h2 => (mem_kill.mp h2).2 rfl)))
          · rcases h.upd hr x hx with h1 | h1 | h1 | h1
            · exact .inl h1
            · exact .inr (.inl ((List.mem_erase_of_ne e).mpr h1))
            · exact .inr (.inr (.inl h1))
            · exact .inr (.inr (.inr (fun h2 => h1 (mem_kill.mp h2).1)))
      · exact inv_kill h t
    · exact h

theorem inv_run : ∀ (es : List Ev) {s : St}, Inv s → NoStray es → Inv (run s es)
  | [], _, h, _ => h
  | e :: es, _, h, hn => inv_run es (inv_step h e (fun e' => hn (e' ▸ List.mem_cons_self)))
      (fun hm => hn (List.mem_cons_of_mem _ hm))

/-- **C64**, the result: when a reload reports success, every tunnel of the client uses the new services, or has lost its
connection. For every order of writes, answers, losses and earlier reloads, failed ones included, provided that no
connection attempt is refused while a reload runs (otherwise it is false, below). -/
theorem success_means_updated_partial (es : List Ev) (hn : NoStray es)
    (h : (step (run init es) .wake).results ≠ (run init es).results) : Updated (step (run init es) .wake) := by
  have hi := inv_run es inv_init hn
  revert h hi
  generalize run init es = s
  intro h hi
  simp only [step] at h ⊢
  split at h
  · rename_i hc
    rw [if_pos hc]
    have hb := hi.bal
    have hu := hi.upd (by rw [hc.1]; rfl)
    rw [hc.1, hc.2] at hb
    rw [hc.1] at hu
    have ht : s.told = [] := by
      have : s.told.length = 0 := by simp only [Ph.pending] at hb; omega
      exact List.length_eq_zero_iff.mp this
    intro t htt
    rcases hu t htt with h1 | h1 | h1
    · cases h1
    · rw [ht] at h1; cases h1
    · exact h1
  · exact absurd rfl h

/-- Once every tunnel that was told has answered, the wait ends: the counter is zero. -/
theorem all_answered_ends_wait (es : List Ev) (hn : NoStray es) (hp : (run init es).ph = .waiting)
    (ht : (run init es).told = []) :
    (step (run init es) .wake).ph = .idle ∧ (step (run init es) .wake).results = (run init es).results ++ [true] := by
  have hb := (inv_run es inv_init hn).bal
  revert hb hp ht
  generalize run init es = s
  intro hp ht hb
  rw [hp, ht] at hb
  have hw : s.wg = 0 := by simp only [Ph.pending, List.length_nil] at hb; omega
  simp only [step, if_pos (show s.ph = .waiting ∧ s.wg = 0 from ⟨hp, hw⟩)]
  exact ⟨trivial, trivial⟩

theorem not_accepted {s : St} {t : Nat} (ha : t ∉ s.alive) (ht : t ∈ s.told) (e : Ev) (he : e ≠ .stray) :
    t ∈ (step s e).told ∧ t ∉ (step s e).alive := by
  have hk : ∀ (q : St) x, q.alive = s.alive → t ∉ (kill q x).alive := by
    intro q x hq h2
    have := (mem_kill.mp h2).1
    rw [hq] at this; exact ha this
  cases e with
  | stray => exact absurd rfl he
  | die x => exact ⟨ht, hk s x rfl⟩
  | opened x =>
    simp only [step]
    split
    · rename_i hc
      refine ⟨ht, fun hm => ?_⟩
      rcases List.mem_cons.mp hm with rfl | h1
      · exact hc.2.2 ht
      · exact ha h1
    · exact ⟨ht, ha⟩
  | removed x => simp only [step]; split <;> exact ⟨ht, ha⟩
  | begin o => simp only [step]; split <;> exact ⟨ht, ha⟩
  | writeOk =>
    simp only [step]
    split
    · exact ⟨List.mem_append_left _ ht, ha⟩
    · exact ⟨ht, ha⟩
    · exact ⟨ht, ha⟩
  | writeErr => simp only [step]; split <;> exact ⟨ht, ha⟩
  | add => simp only [step]; split <;> exact ⟨ht, ha⟩
  | wake => simp only [step]; split <;> exact ⟨ht, ha⟩
  | timeout => simp only [step]; split <;> exact ⟨ht, ha⟩
  | accepted x =>
    simp only [step]
    split
    · rename_i hc
      have hne : t ≠ x := fun e => ha (e ▸ hc.2.1)
      split
      · exact ⟨(List.mem_erase_of_ne hne).mpr ht, hk _ x rfl⟩
      · exact ⟨(List.mem_erase_of_ne hne).mpr ht, ha⟩
    · exact ⟨ht, ha⟩
  | refused x =>
    simp only [step]
    split
    · rename_i hc
      have hne : t ≠ x := fun e => ha (e ▸ hc.2.1)
      split
      · exact ⟨(List.mem_erase_of_ne hne).mpr ht, hk _ x rfl⟩
      · exact ⟨ht, hk s x rfl⟩
    · exact ⟨ht, ha⟩

theorem results_step {s : St} (e : Ev) : (step s e).results = s.results ∨ (step s e).results = s.results ++ [false] ∨
    (e = .wake ∧ s.ph = .waiting ∧ s.wg = 0) := by
  cases e with
  | wake =>
    simp only [step]
    split
    · rename_i h; exact .inr (.inr ⟨trivial, h⟩)
    · exact .inl rfl
  | writeErr =>
    simp only [step]
    split
    · exact .inr (.inl rfl)
    · exact .inl rfl
  | accepted x => simp only [step]; split <;> (try split) <;> exact .inl rfl
  | refused x => simp only [step]; split <;> (try split) <;> exact .inl rfl
  | writeOk => simp only [step]; split <;> exact .inl rfl
  | add => simp only [step]; split <;> exact .inl rfl
  | die x => exact .inl rfl
  | opened x => simp only [step]; split <;> exact .inl rfl
  | removed x => simp only [step]; split <;> exact .inl rfl
  | begin x => simp only [step]; split <;> exact .inl rfl
  | timeout => simp only [step]; split <;> exact .inl rfl
  | stray => simp only [step]; split <;> exact .inl rfl

theorem lost_never {s : St} (hi : Inv s) (hl : Lost s) : ∀ (es : List Ev), NoStray es →
    (run s es).results.count true = s.results.count true
  | [], _ => rfl
  | e :: es, hn => by
    have hne : e ≠ .stray := fun e' => hn (e' ▸ List.mem_cons_self)
    obtain ⟨t, ht, ha⟩ := hl
    have := lost_never (inv_step hi e hne) ⟨t, (not_accepted ha ht e hne).1, (not_accepted ha ht e hne).2⟩ es
      (fun hm => hn (List.mem_cons_of_mem _ hm))
    show (run (step s e) es).results.count true = _
    rw [this]
    rcases results_step (s := s) e with h1 | h1 | ⟨rfl, h1, h2⟩
    · rw [h1]
    · rw [h1, List.count_append]; simp
    · exfalso
      have hb := hi.bal
      rw [h1, h2] at hb
      have : s.told.length = 0 := by simp only [Ph.pending] at hb; omega
      rw [List.length_eq_zero_iff.mp this] at ht
      cases ht

/-- **C64 is false**: if one tunnel that was told the new services loses its connection before it answers, no reload ever
succeeds again, whatever happens — this one and every later one that reaches the wait ends the process after 15 s. (It also
holds if the tunnel was lost after an earlier reload failed.) -/
theorem lost_tunnel_dooms_reloads (es es' : List Ev) (hn : NoStray es) (hn' : NoStray es')
    (hl : Lost (run init es)) : (run (run init es) es').results.count true = (run init es).results.count true :=
  lost_never (inv_run es inv_init hn) hl es' hn'

/-! ## Non-vacuity and executions that go wrong -/

/-- Two tunnels, a reload that both accept: success. The early answer of the first is read before it is counted. -/
example : (run init [.opened 0, .opened 1, .begin [1, 0], .writeOk, .add, .writeOk, .add, .writeOk, .accepted 0, .accepted 1,
    .wake]).results = [true] := by decide +kernel

example : (step (run init [.opened 0, .opened 1, .begin [1, 0], .writeOk, .add, .writeOk, .add, .writeOk, .accepted 0,
    .accepted 1]) .wake).results ≠ (run init [.opened 0, .opened 1, .begin [1, 0], .writeOk, .add, .writeOk, .add, .writeOk,
    .accepted 0, .accepted 1]).results := by decide +kernel

/-- The hypotheses of `lost_tunnel_dooms_reloads` are met by a tunnel that breaks while the client waits; the process ends. -/
example : Lost (run init [.opened 0, .begin [0], .writeOk, .add, .writeOk, .die 0]) ∧
    (run init [.opened 0, .begin [0], .writeOk, .add, .writeOk, .die 0, .wake, .timeout]).ph = .exited :=
  ⟨⟨0, by decide +kernel, by decide +kernel⟩, by decide +kernel⟩

/-- A reload that fails while it writes leaves its answers behind: if a tunnel that was told refuses after that, its answer
is not counted, and the next reload waits in vain. -/
theorem failed_reload_dooms_next :
    let s := run init [.opened 0, .opened 1, .begin [0, 1], .writeOk, .add, .die 1, .writeErr, .removed 1, .refused 0,
      .removed 0, .opened 2, .begin [2], .writeOk, .add, .writeOk, .accepted 2]
    s.ph = .waiting ∧ s.results = [false] ∧ s.tun = [2] ∧ s.told = [0] ∧ s.wg = 1 ∧ (step s .wake).ph = .waiting ∧
      (step s .timeout).ph = .exited := by decide +kernel

/-- **C64 is false**: a connection attempt that the server refuses while a reload runs counts as an answer: the reload
reports success although a tunnel still has the old services. -/
theorem stray_error_ends_wait_early :
    let s := run init [.opened 0, .begin [0], .writeOk, .add, .writeOk, .stray, .wake]
    s.results = [true] ∧ s.tun = [0] ∧ s.alive = [0] ∧ s.has 0 = 0 ∧ s.gen = 1 := by decide +kernel

/-- The answer that comes after that makes the counter negative; the tunnel's reader panics and the tunnel is lost. -/
theorem answer_after_early_end_kills_tunnel :
    let s := run init [.opened 0, .begin [0], .writeOk, .add, .writeOk, .stray, .wake, .accepted 0]
    s.wg = -1 ∧ s.alive = [] := by decide +kernel

/-- An answer that is read before `Add` makes the counter negative, too: the reload succeeds, but the tunnel, which the
server has accepted, is lost. -/
theorem answer_before_add_kills_tunnel :
    let s := run init [.opened 0, .begin [0], .writeOk, .accepted 0, .add, .writeOk, .wake]
    s.results = [true] ∧ s.alive = [] := by decide +kernel

/-- A reload that the server refuses on every tunnel reports success. -/
theorem refused_reload_reports_success :
    let s := run init [.opened 0, .begin [0], .writeOk, .add, .writeOk, .refused 0, .wake]
    s.results = [true] ∧ s.alive = [] ∧ s.has 0 = 0 := by decide +kernel

/-- **C64, an accepted reload keeps the tunnel**: unless a connection attempt fails meanwhile, or the answer overtakes the reload's own
count, a tunnel that reads the answer of the server stays, and so do all others. -/
theorem answer_keeps_tunnels (es : List Ev) (hn : NoStray es) (hp : ∀ r, (run init es).ph ≠ .adding r) (t : Nat) :
    (step (run init es) (.accepted t)).alive = (run init es).alive := by
  have hi := inv_run es inv_init hn
  generalize run init es = s at hi hp
  simp only [step]
  split
  · rename_i hc
    have hb := hi.bal
    have h0 : s.ph.pending = 0 := by
      cases hph : s.ph with
      | adding r => exact absurd hph (hp r)
      | _ => rfl
    have hl : 0 < s.told.length := List.length_pos_of_mem hc.1
    rw [if_neg (by omega)]
  · rfl

/-- The answer of the last tunnel comes while the reload waits. -/
example : let s := run init [.opened 0, .opened 1, .begin [0, 1], .writeOk, .add, .writeOk, .add, .writeOk, .accepted 1]
    s.ph = .waiting ∧ s.alive = [1, 0] ∧ s.wg = 1 ∧ (step s (.accepted 0)).alive = [1, 0] ∧ (step s (.accepted 0)).wg = 0 := by
  decide +kernel

end Verif.Reload.Wait
