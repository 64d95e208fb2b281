import Verif.Common
set_option linter.unusedSimpArgs false
set_option linter.unusedVariables false
/-!
# C56: tunnels of one client that arrive at the same time
(libcs/server/conn.go:487-508, libcs/server/client.go:57-76, 105-125, 269-288)

`Verif.Registry.Model` joins the creation of the client object and its `init`. Here they are separate, as in the
code, for any number of tunnels that present the same id. Host prefixes, ports and checksums are left out.
-/
namespace Verif.Registry.InitRace

/-- `client`: `connections` (0 until `init` has set it) and `tunnels` (`none`: nil). -/
structure Obj where
  conns : Nat
  tunnels : Option (List Nat)
deriving DecidableEq, Repr

/-- Where the handler of a tunnel connection is. -/
inductive PC where
  /-- about to call `getOrCreateClient`, with that many rounds of the loop left (libcs/server/conn.go:490) -/
  | load (rounds : Nat)
  /-- inside `init`, before and after `c.connections` is set (libcs/server/client.go:66) -/
  | init1 (o rounds : Nat)
  | init2 (o rounds : Nat)
  /-- about to call `addTunnel` -/
  | add (o rounds : Nat)
  | up (o : Nat)
  /-- refused with `ErrReachedMaxConnections` when the client had that many tunnels -/
  | refused (had : Nat)
  /-- `failed to create client` (libcs/server/conn.go:506-508) -/
  | gaveUp
  /-- the tunnel has ended -/
  | left
deriving DecidableEq, Repr

structure St where
  /-- `id2Client` for the id -/
  entry : Option Nat
  objs : Nat → Obj
  next : Nat
  pc : Nat → PC

def initial : St := { entry := none, objs := fun _ => ⟨0, none⟩, next := 0, pc := fun _ => .load 5 }

def upd {α} (f : Nat → α) (k : Nat) (v : α) : Nat → α := fun x => if x = k then v else f x

@[simp] theorem upd_self {α} (f : Nat → α) (k : Nat) (v : α) : upd f k v k = v := by simp [upd]
theorem upd_ne {α} (f : Nat → α) {k x : Nat} (v : α) (h : x ≠ k) : upd f k v x = f x := by simp [upd, h]

/-- The next step of tunnel `t`; `L` is the user's connection limit. A tunnel that is up may end. -/
def step (L : Nat) (s : St) (t : Nat) : St :=
  match s.pc t with
  | .load 0 => { s with pc := upd s.pc t .gaveUp }
  | .load (n + 1) =>
    match s.entry with
    | some o => { s with pc := upd s.pc t (.add o n) }
    | none => { s with
        entry := some s.next
        objs := upd s.objs s.next ⟨0, none⟩
        next := s.next + 1
        pc := upd s.pc t (.init1 s.next n) }
  | .init1 o n => { s with
      objs := upd s.objs o { s.objs o with conns := L }
      pc := upd s.pc t (.init2 o n) }
  | .init2 o n => { s with
      objs := upd s.objs o { s.objs o with tunnels := some [] }
      pc := upd s.pc t (.add o n) }
  | .add o n =>
    if (s.objs o).conns ≤ ((s.objs o).tunnels.getD []).length then
      { s with pc := upd s.pc t (.refused ((s.objs o).tunnels.getD []).length) }
    else
      match (s.objs o).tunnels with
      | none => { s with pc := upd s.pc t (.load n) }
      | some l => { s with
          objs := upd s.objs o { s.objs o with tunnels := some (t :: l) }
          pc := upd s.pc t (.up o) }
  | .up o =>
    match (s.objs o).tunnels with
    | none => { s with pc := upd s.pc t .left }
    | some l =>
      if l.erase t = [] then { s with
          entry := none
          objs := upd s.objs o { s.objs o with tunnels := none }
          pc := upd s.pc t .left }
      else { s with
          objs := upd s.objs o { s.objs o with tunnels := some (l.erase t) }
          pc := upd s.pc t .left }
  | .refused _ => s
  | .gaveUp => s
  | .left => s

def run (L : Nat) (s : St) : List Nat → St
  | [] => s
  | t :: ts => run L (step L s t) ts

/-! ## Invariant -/

structure Inv (L : Nat) (s : St) : Prop where
  /-- an object with a tunnel map is the registered one, fully initialised -/
  reg : ∀ o l, (s.objs o).tunnels = some l → s.entry = some o ∧ (s.objs o).conns = L ∧ l.Nodup ∧ l.length ≤ L ∧
    ∀ t ∈ l, s.pc t = .up o
  /-- a tunnel that is up is in the map of its object -/
  up : ∀ t o, s.pc t = .up o → ∃ l, (s.objs o).tunnels = some l ∧ t ∈ l
  /-- the object being initialised is the registered one -/
  ini : ∀ t o n, s.pc t = .init1 o n ∨ s.pc t = .init2 o n → s.entry = some o ∧ (s.objs o).tunnels = none
  ini2 : ∀ t o n, s.pc t = .init2 o n → (s.objs o).conns = L
  /-- and one tunnel does it -/
  one : ∀ t o n t' o' n', (s.pc t = .init1 o n ∨ s.pc t = .init2 o n) →
    (s.pc t' = .init1 o' n' ∨ s.pc t' = .init2 o' n') → t = t'
  fresh : ∀ o, s.next ≤ o → (s.objs o).tunnels = none
  entryLt : ∀ o, s.entry = some o → o < s.next
  conns : ∀ o, (s.objs o).conns ≤ L

theorem inv_initial (L : Nat) : Inv L initial := by
  constructor <;> simp [initial]

theorem inv_step {L s} (h : Inv L s) (t : Nat) : Inv L (step L s t) := by
  -- a change of the program counter of `t` alone
  have pcOnly : ∀ p, (∀ o, p ≠ .up o) → (∀ o n, p ≠ .init1 o n) → (∀ o n, p ≠ .init2 o n) →
      (∀ o, s.pc t ≠ .up o) → Inv L { s with pc := upd s.pc t p } := by
    intro p h1 h2 h3 hup
    have hne : ∀ x q, upd s.pc t p x = q → (x ≠ t ∧ s.pc x = q) ∨ (x = t ∧ p = q) := by
      intro x q hq
      by_cases hx : x = t
      · subst hx; rw [upd_self] at hq; exact Or.inr ⟨rfl, hq⟩
      · rw [upd_ne _ _ hx] at hq; exact Or.inl ⟨hx, hq⟩
    have hini : ∀ x o n, upd s.pc t p x = .init1 o n ∨ upd s.pc t p x = .init2 o n →
        s.pc x = .init1 o n ∨ s.pc x = .init2 o n := by
      intro x o n hq
      rcases hq with hq | hq
      · rcases hne x _ hq with ⟨_, hq⟩ | ⟨_, hq⟩
        · exact Or.inl hq
        · exact absurd hq (h2 o n)
      · rcases hne x _ hq with ⟨_, hq⟩ | ⟨_, hq⟩
        · exact Or.inr hq
        · exact absurd hq (h3 o n)
    refine ⟨?_, ?_, ?_, ?_, ?_, h.fresh, h.entryLt, h.conns⟩
    · intro o l hl
      obtain ⟨a, b, c, d, e⟩ := h.reg o l hl
      refine ⟨a, b, c, d, ?_⟩
      intro x hx
      have := e x hx
      have hxt : x ≠ t := by intro e2; rw [e2] at this; exact hup o this
      dsimp only; rw [upd_ne _ _ hxt]; exact this
    · intro x o hx
      rcases hne x _ hx with ⟨_, hx⟩ | ⟨_, hx⟩
      · exact h.up x o hx
      · exact absurd hx (h1 o)
    · intro x o n hx
      exact h.ini x o n (hini x o n hx)
    · intro x o n hx
      rcases hne x _ hx with ⟨_, hx⟩ | ⟨_, hx⟩
      · exact h.ini2 x o n hx
      · exact absurd hx (h3 o n)
    · intro x o n x' o' n' hx hx'
      exact h.one x o n x' o' n' (hini x o n hx) (hini x' o' n' hx')
  unfold step
  cases hp : s.pc t with
  | load m =>
    cases m with
    | zero => exact pcOnly _ (by simp) (by simp) (by simp) (by simp [hp])
    | succ n =>
      dsimp only
      cases he : s.entry with
      | some o =>
        dsimp only
        have := pcOnly (.add o n) (by simp) (by simp) (by simp) (by simp [hp])
        rw [he] at this
        exact this
      | none =>
        dsimp only
        -- no object has a map, nobody is inside `init`
        have hno : ∀ o l, (s.objs o).tunnels ≠ some l := by
          intro o l hl
          have := (h.reg o l hl).1
          rw [he] at this; cases this
        have hnoini : ∀ x o n, ¬ (s.pc x = .init1 o n ∨ s.pc x = .init2 o n) := by
          intro x o n hx
          have := (h.ini x o n hx).1
          rw [he] at this; cases this
        have hob : ∀ o l, (upd s.objs s.next ⟨0, none⟩ o).tunnels ≠ some l := by
          intro o l
          by_cases ho : o = s.next
          · subst ho; rw [upd_self]; simp
          · rw [upd_ne _ _ ho]; exact hno o l
        have hob' : ∀ o, (upd s.objs s.next ⟨0, none⟩ o).tunnels = none := by
          intro o
          cases hx : (upd s.objs s.next ⟨0, none⟩ o).tunnels with
          | none => rfl
          | some l => exact absurd hx (hob o l)
        have hini : ∀ x o m, (upd s.pc t (.init1 s.next n) x = .init1 o m ∨ upd s.pc t (.init1 s.next n) x = .init2 o m) →
            x = t ∧ o = s.next := by
          intro x o m hx
          by_cases hxt : x = t
          · subst hxt
            simp only [upd_self] at hx
            rcases hx with hx | hx
            · cases hx; exact ⟨rfl, rfl⟩
            · cases hx
          · rw [upd_ne _ _ hxt] at hx
            exact absurd hx (hnoini x o m)
        refine ⟨?_, ?_, ?_, ?_, ?_, fun o _ => hob' o, ?_, ?_⟩
        · intro o l hl; exact absurd hl (hob o l)
        · intro x o hx
          dsimp only at hx
          by_cases hxt : x = t
          · subst hxt; simp at hx
          · rw [upd_ne _ _ hxt] at hx
            obtain ⟨l, hl, _⟩ := h.up x o hx
            exact absurd hl (hno o l)
        · intro x o m hx
          obtain ⟨_, rfl⟩ := hini x o m hx
          exact ⟨rfl, hob' _⟩
        · intro x o m hx
          exfalso
          dsimp only at hx
          by_cases hxt : x = t
          · subst hxt; simp at hx
          · rw [upd_ne _ _ hxt] at hx
            exact hnoini x o m (Or.inr hx)
        · intro x o m x' o' m' hx hx'
          rw [(hini x o m hx).1, (hini x' o' m' hx').1]
        · intro o ho; cases ho; exact Nat.lt_succ_self _
        · intro o
          dsimp only
          by_cases ho : o = s.next
          · subst ho; rw [upd_self]; exact Nat.zero_le _
          · rw [upd_ne _ _ ho]; exact h.conns o
  | init1 o n =>
    dsimp only
    obtain ⟨he, hn⟩ := h.ini t o n (Or.inl hp)
    have htun : ∀ x, (upd s.objs o { s.objs o with conns := L } x).tunnels = (s.objs x).tunnels := by
      intro x
      by_cases hx : x = o
      · subst hx; rw [upd_self]
      · rw [upd_ne _ _ hx]
    have hini : ∀ x o' m, (upd s.pc t (.init2 o n) x = .init1 o' m ∨ upd s.pc t (.init2 o n) x = .init2 o' m) →
        x = t ∧ o' = o := by
      intro x o' m hx
      by_cases hxt : x = t
      · subst hxt
        simp only [upd_self] at hx
        rcases hx with hx | hx
        · cases hx
        · cases hx; exact ⟨rfl, rfl⟩
      · rw [upd_ne _ _ hxt] at hx
        exact absurd (h.one x o' m t o n hx (Or.inl hp)) hxt
    refine ⟨?_, ?_, ?_, ?_, ?_, ?_, h.entryLt, ?_⟩
    · intro o' l hl
      dsimp only at hl
      rw [htun] at hl
      obtain ⟨a, b, c, d, e⟩ := h.reg o' l hl
      have hoo : o' ≠ o := by intro e2; rw [e2, hn] at hl; cases hl
      refine ⟨a, by dsimp only; rw [upd_ne _ _ hoo]; exact b, c, d, ?_⟩
      intro x hx
      have := e x hx
      have hxt : x ≠ t := by intro e2; rw [e2, hp] at this; cases this
      dsimp only; rw [upd_ne _ _ hxt]; exact this
    · intro x o' hx
      dsimp only at hx
      by_cases hxt : x = t
      · subst hxt; simp at hx
      · rw [upd_ne _ _ hxt] at hx
        obtain ⟨l, hl, hm⟩ := h.up x o' hx
        exact ⟨l, by dsimp only; rw [htun]; exact hl, hm⟩
    · intro x o' m hx
      obtain ⟨_, rfl⟩ := hini x o' m hx
      exact ⟨he, by dsimp only; rw [htun]; exact hn⟩
    · intro x o' m hx
      obtain ⟨_, rfl⟩ := hini x o' m (Or.inr hx)
      dsimp only; rw [upd_self]
    · intro x o1 m x' o2 m' hx hx'
      rw [(hini x o1 m hx).1, (hini x' o2 m' hx').1]
    · intro o' ho; dsimp only; rw [htun]; exact h.fresh o' ho
    · intro o'
      dsimp only
      by_cases ho : o' = o
      · subst ho; rw [upd_self]; exact Nat.le_refl _
      · rw [upd_ne _ _ ho]; exact h.conns o'
  | init2 o n =>
    dsimp only
    obtain ⟨he, hn⟩ := h.ini t o n (Or.inr hp)
    have hini : ∀ x o' m, ¬ (upd s.pc t (.add o n) x = .init1 o' m ∨ upd s.pc t (.add o n) x = .init2 o' m) := by
      intro x o' m hx
      by_cases hxt : x = t
      · subst hxt; simp at hx
      · rw [upd_ne _ _ hxt] at hx
        exact absurd (h.one x o' m t o n hx (Or.inr hp)) hxt
    refine ⟨?_, ?_, ?_, ?_, ?_, ?_, h.entryLt, ?_⟩
    · intro o' l hl
      dsimp only at hl ⊢
      by_cases ho : o' = o
      · subst ho
        rw [upd_self] at hl ⊢
        cases hl
        exact ⟨he, h.ini2 t o' n hp, List.nodup_nil, Nat.zero_le _, by simp⟩
      · rw [upd_ne _ _ ho] at hl
        have := (h.reg o' l hl).1
        rw [he] at this; cases this
        exact absurd rfl ho
    · intro x o' hx
      dsimp only at hx
      by_cases hxt : x = t
      · subst hxt; simp at hx
      · rw [upd_ne _ _ hxt] at hx
        obtain ⟨l, hl, hm⟩ := h.up x o' hx
        have := (h.reg o' l hl).1
        rw [he] at this; cases this
        rw [hn] at hl; cases hl
    · intro x o' m hx; exact absurd hx (hini x o' m)
    · intro x o' m hx; exact absurd (Or.inr hx) (hini x o' m)
    · intro x o1 m x' o2 m' hx hx'; exact absurd hx (hini x o1 m)
    · intro o' ho
      dsimp only at ho ⊢
      have := h.entryLt o he
      rw [upd_ne _ _ (by omega)]
      exact h.fresh o' ho
    · intro o'
      dsimp only
      by_cases ho : o' = o
      · subst ho; rw [upd_self]; exact h.conns o'
      · rw [upd_ne _ _ ho]; exact h.conns o'
  | add o n =>
    dsimp only
    by_cases hc : (s.objs o).conns ≤ ((s.objs o).tunnels.getD []).length
    · rw [if_pos hc]
      exact pcOnly _ (by simp) (by simp) (by simp) (by simp [hp])
    · rw [if_neg hc]
      cases hl : (s.objs o).tunnels with
      | none => exact pcOnly _ (by simp) (by simp) (by simp) (by simp [hp])
      | some l =>
        dsimp only
        rw [hl, Option.getD_some] at hc
        obtain ⟨he, hL, hnd, hlen, hall⟩ := h.reg o l hl
        have htl : t ∉ l := by intro hm; have := hall t hm; rw [hp] at this; cases this
        have hini : ∀ x o' m, ¬ (upd s.pc t (.up o) x = .init1 o' m ∨ upd s.pc t (.up o) x = .init2 o' m) := by
          intro x o' m hx
          by_cases hxt : x = t
          · subst hxt; simp at hx
          · rw [upd_ne _ _ hxt] at hx
            have h2 := h.ini x o' m hx
            rw [he] at h2
            obtain ⟨h3, h4⟩ := h2
            cases h3
            rw [hl] at h4; cases h4
        refine ⟨?_, ?_, ?_, ?_, ?_, ?_, h.entryLt, ?_⟩
        · intro o' l' hl'
          dsimp only at hl' ⊢
          by_cases ho : o' = o
          · subst ho
            rw [upd_self] at hl' ⊢
            cases hl'
            refine ⟨he, hL, List.nodup_cons.mpr ⟨htl, hnd⟩, ?_, ?_⟩
            · rw [List.length_cons]; omega
            · intro x hx
              by_cases hxt : x = t
              · subst hxt; rw [upd_self]
              · rw [upd_ne _ _ hxt]
                rcases List.mem_cons.mp hx with hx | hx
                · exact absurd hx hxt
                · exact hall x hx
          · rw [upd_ne _ _ ho] at hl'
            have := (h.reg o' l' hl').1
            rw [he] at this; cases this
            exact absurd rfl ho
        · intro x o' hx
          dsimp only at hx ⊢
          by_cases hxt : x = t
          · subst hxt
            rw [upd_self] at hx
            cases hx
            exact ⟨x :: l, by rw [upd_self], List.mem_cons_self⟩
          · rw [upd_ne _ _ hxt] at hx
            obtain ⟨l', hl', hm⟩ := h.up x o' hx
            have := (h.reg o' l' hl').1
            rw [he] at this; cases this
            rw [hl] at hl'; cases hl'
            exact ⟨t :: l, by rw [upd_self], List.mem_cons_of_mem _ hm⟩
        · intro x o' m hx; exact absurd hx (hini x o' m)
        · intro x o' m hx; exact absurd (Or.inr hx) (hini x o' m)
        · intro x o1 m x' o2 m' hx hx'; exact absurd hx (hini x o1 m)
        · intro o' ho
          dsimp only at ho ⊢
          have := h.entryLt o he
          rw [upd_ne _ _ (by omega)]
          exact h.fresh o' ho
        · intro o'
          dsimp only
          by_cases ho : o' = o
          · subst ho; rw [upd_self]; exact h.conns o'
          · rw [upd_ne _ _ ho]; exact h.conns o'
  | up o =>
    dsimp only
    obtain ⟨l, hl, hm⟩ := h.up t o hp
    obtain ⟨he, hL, hnd, hlen, hall⟩ := h.reg o l hl
    rw [hl]
    dsimp only
    have hpcini : ∀ x o' m, ¬ (s.pc x = .init1 o' m ∨ s.pc x = .init2 o' m) := by
      intro x o' m hx
      have h2 := h.ini x o' m hx
      rw [he] at h2
      obtain ⟨h3, h4⟩ := h2
      cases h3
      rw [hl] at h4; cases h4
    have hini : ∀ x o' m, ¬ (upd s.pc t .left x = .init1 o' m ∨ upd s.pc t .left x = .init2 o' m) := by
      intro x o' m hx
      by_cases hxt : x = t
      · subst hxt; simp at hx
      · rw [upd_ne _ _ hxt] at hx; exact hpcini x o' m hx
    by_cases hemp : l.erase t = []
    · rw [if_pos hemp]
      have hnone : ∀ o', (upd s.objs o { s.objs o with tunnels := none } o').tunnels = none := by
        intro o'
        by_cases ho : o' = o
        · subst ho; rw [upd_self]
        · rw [upd_ne _ _ ho]
          cases hx : (s.objs o').tunnels with
          | none => rfl
          | some l' =>
            have := (h.reg o' l' hx).1
            rw [he] at this; cases this
            exact absurd rfl ho
      refine ⟨?_, ?_, ?_, ?_, ?_, fun o' _ => hnone o', (by intro o' ho; cases ho), ?_⟩
      · intro o' l' hl'
        dsimp only at hl'
        rw [hnone] at hl'; cases hl'
      · intro x o' hx
        dsimp only at hx
        by_cases hxt : x = t
        · subst hxt; simp at hx
        · rw [upd_ne _ _ hxt] at hx
          obtain ⟨l', hl', hm'⟩ := h.up x o' hx
          have := (h.reg o' l' hl').1
          rw [he] at this; cases this
          rw [hl] at hl'; cases hl'
          have h3 : x ∈ l.erase t := (List.mem_erase_of_ne hxt).mpr hm'
          rw [hemp] at h3; cases h3
      · intro x o' m hx; exact absurd hx (hini x o' m)
      · intro x o' m hx; exact absurd (Or.inr hx) (hini x o' m)
      · intro x o1 m x' o2 m' hx hx'; exact absurd hx (hini x o1 m)
      · intro o'
        dsimp only
        by_cases ho : o' = o
        · subst ho; rw [upd_self]; exact h.conns o'
        · rw [upd_ne _ _ ho]; exact h.conns o'
    · rw [if_neg hemp]
      refine ⟨?_, ?_, ?_, ?_, ?_, ?_, h.entryLt, ?_⟩
      · intro o' l' hl'
        dsimp only at hl' ⊢
        by_cases ho : o' = o
        · subst ho
          rw [upd_self] at hl' ⊢
          cases hl'
          refine ⟨he, hL, hnd.erase t, Nat.le_trans (List.length_erase_le) hlen, ?_⟩
          intro x hx
          have hxt : x ≠ t := by
            intro e2; subst e2
            exact absurd hx (List.Nodup.not_mem_erase hnd)
          rw [upd_ne _ _ hxt]
          exact hall x (List.mem_of_mem_erase hx)
        · rw [upd_ne _ _ ho] at hl'
          have := (h.reg o' l' hl').1
          rw [he] at this; cases this
          exact absurd rfl ho
      · intro x o' hx
        dsimp only at hx ⊢
        by_cases hxt : x = t
        · subst hxt; simp at hx
        · rw [upd_ne _ _ hxt] at hx
          obtain ⟨l', hl', hm'⟩ := h.up x o' hx
          have := (h.reg o' l' hl').1
          rw [he] at this; cases this
          rw [hl] at hl'; cases hl'
          exact ⟨l.erase t, by rw [upd_self], (List.mem_erase_of_ne hxt).mpr hm'⟩
      · intro x o' m hx; exact absurd hx (hini x o' m)
      · intro x o' m hx; exact absurd (Or.inr hx) (hini x o' m)
      · intro x o1 m x' o2 m' hx hx'; exact absurd hx (hini x o1 m)
      · intro o' ho
        dsimp only at ho ⊢
        have := h.entryLt o he
        rw [upd_ne _ _ (by omega)]
        exact h.fresh o' ho
      · intro o'
        dsimp only
        by_cases ho : o' = o
        · subst ho; rw [upd_self]; exact h.conns o'
        · rw [upd_ne _ _ ho]; exact h.conns o'
  | refused k => exact h
  | gaveUp => exact h
  | left => exact h

theorem inv_run {L} : ∀ (ts : List Nat) {s}, Inv L s → Inv L (run L s ts)
  | [], _, h => h
  | t :: ts, _, h => inv_run ts (inv_step h t)

theorem nodup_length_le {l m : List Nat} (h : l.Nodup) (hs : ∀ x ∈ l, x ∈ m) : l.length ≤ m.length := by
  induction l generalizing m with
  | nil => exact Nat.zero_le _
  | cons a l ih =>
    have ha := hs a List.mem_cons_self
    obtain ⟨hn, hd⟩ := List.nodup_cons.mp h
    have := ih (m := m.erase a) hd (by
      intro x hx
      have hxa : x ≠ a := by intro e; rw [e] at hx; exact hn hx
      exact (List.mem_erase_of_ne hxa).mpr (hs x (List.mem_cons_of_mem _ hx)))
    rw [List.length_erase_of_mem ha] at this
    have hpos : 0 < m.length := List.length_pos_of_mem ha
    rw [List.length_cons]; omega

/-- **C56 / C25**: however the tunnels of one id interleave, at most `L` of them are up, and they share one client
object, the registered one. -/
theorem never_more_than_limit (L : Nat) (sched : List Nat) (ts : List Nat) (hd : ts.Nodup)
    (hup : ∀ t ∈ ts, ∃ o, (run L initial sched).pc t = .up o) :
    ts.length ≤ L ∧ ∀ t ∈ ts, ∃ o, (run L initial sched).pc t = .up o ∧ (run L initial sched).entry = some o := by
  have h := inv_run sched (inv_initial L)
  generalize run L initial sched = s at *
  have hreg : ∀ t ∈ ts, ∃ o l, s.pc t = .up o ∧ s.entry = some o ∧ (s.objs o).tunnels = some l ∧ t ∈ l ∧ l.length ≤ L := by
    intro t ht
    obtain ⟨o, ho⟩ := hup t ht
    obtain ⟨l, hl, hm⟩ := h.up t o ho
    obtain ⟨he, _, _, hlen, _⟩ := h.reg o l hl
    exact ⟨o, l, ho, he, hl, hm, hlen⟩
  refine ⟨?_, fun t ht => by obtain ⟨o, _, a, b, _⟩ := hreg t ht; exact ⟨o, a, b⟩⟩
  cases ts with
  | nil => exact Nat.zero_le _
  | cons a ts =>
    obtain ⟨o, l, _, he, hl, _, hlen⟩ := hreg a List.mem_cons_self
    refine Nat.le_trans (nodup_length_le (m := l) hd ?_) hlen
    intro x hx
    obtain ⟨o', l', _, he', hl', hm', _⟩ := hreg x hx
    rw [he] at he'; cases he'
    rw [hl] at hl'; cases hl'
    exact hm'

/-- **C56** (partial): a tunnel that finds an initialised client object is refused only if the client has as many
tunnels as allowed. Missing: the object may not be initialised yet (`refused_below_limit`). -/
theorem refused_at_limit_partial (L : Nat) (sched : List Nat) (t o n k : Nat)
    (hadd : (run L initial sched).pc t = .add o n) (hinit : ((run L initial sched).objs o).tunnels ≠ none)
    (hr : (step L (run L initial sched) t).pc t = .refused k) : k = L := by
  have h := inv_run sched (inv_initial L)
  generalize run L initial sched = s at *
  cases hl : (s.objs o).tunnels with
  | none => exact absurd hl hinit
  | some l =>
    obtain ⟨_, hL, _, hlen, _⟩ := h.reg o l hl
    simp only [step, hadd, hl, Option.getD_some, hL] at hr
    by_cases hc : L ≤ l.length
    · rw [if_pos hc] at hr
      simp only [upd_self, PC.refused.injEq] at hr
      omega
    · rw [if_neg hc] at hr
      simp only [upd_self] at hr
      cases hr

/-- **C56 is false**: with a limit of ten, the second of two tunnels that arrive together is told that the client has
reached its maximum, when it has no tunnel at all: `connections` is still 0. -/
theorem refused_below_limit : (run 10 initial [1, 2, 2]).pc 2 = .refused 0 := by decide

/-- ... and if it comes a little later, it can run out of its five attempts and is dropped without any message. -/
theorem dropped_silently : (run 10 initial [1, 1, 2, 2, 2, 2, 2, 2, 2, 2, 2, 2, 2]).pc 2 = .gaveUp := by decide

/-- Three tunnels one after the other with a limit of two: the third is refused, rightly. -/
theorem sequential_example :
    (run 2 initial [1, 1, 1, 1, 2, 2, 3, 3]).pc 1 = .up 0 ∧ (run 2 initial [1, 1, 1, 1, 2, 2, 3, 3]).pc 2 = .up 0 ∧
    (run 2 initial [1, 1, 1, 1, 2, 2, 3, 3]).pc 3 = .refused 2 := by decide

end Verif.Registry.InitRace
