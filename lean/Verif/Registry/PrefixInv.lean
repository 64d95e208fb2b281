import Verif.Registry.Limit
set_option linter.unusedSimpArgs false
set_option linter.unusedVariables false
/-! # C24: lemmas -/
namespace Verif.Registry
open Verif

abbrev Reg := AMap (String × Bool) (Nat × Nat)
abbrev Ids := AMap String Opt

/-- The entries of client `c` are exactly the prefixes `A`. -/
def Owns (reg : Reg) (c : Nat) (A : Ids) : Prop :=
  ∀ p b i, reg.get (p, b) = some (c, i) ↔ A.get p = some ⟨i, b⟩

/-- Beyond that, nothing is left of the prefixes `A` that are not in `N`. -/
def Clean (reg : Reg) (c : Nat) (N A : Ids) : Prop :=
  Owns reg c N ∧ ∀ p oo, A.get p = some oo → (∀ i, N.get p ≠ some ⟨i, oo.tls⟩) → reg.get (p, oo.tls) = none

/-- The entries of the other clients are the same. -/
def Others (c : Nat) (reg reg' : Reg) : Prop := ∀ c' k i, c' ≠ c → (reg'.get k = some (c', i) ↔ reg.get k = some (c', i))

theorem Others.refl (c : Nat) (reg : Reg) : Others c reg reg := fun _ _ _ _ => Iff.rfl
theorem Others.trans {c : Nat} {a b d : Reg} (h : Others c a b) (k : Others c b d) : Others c a d :=
  fun c' x i hc => (k c' x i hc).trans (h c' x i hc)

theorem eq_opt (o : Opt) (i : Nat) (b : Bool) : o = ⟨i, b⟩ ↔ o.idx = i ∧ o.tls = b := by
  cases o; simp

theorem prune_nil (c : Nat) (N : Ids) (reg : Reg) : prune c N [] reg = reg := rfl

open Classical in
/-- Registering new prefixes and pruning the old ones. -/
theorem add_prune {reg reg1 : Reg} {c : Nat} {A N : Ids} (hA : A.keys.Nodup) (hN : N.keys.Nodup) (ho : Owns reg c A)
    (hr : regAdd c N reg [] = (reg1, true)) :
    Clean (prune c N A reg1) c N A ∧ Others c reg (prune c N A reg1) := by
  obtain ⟨_, h2, h3⟩ := regAdd_get c N reg reg [] hN (by intro k; simp)
  rw [hr] at h2 h3
  have h2 := h2 rfl
  have h3 := h3 rfl
  simp only at h2
  -- pointwise description
  have key : ∀ p b, (prune c N A reg1).get (p, b) =
      if ∃ i, N.get p = some ⟨i, b⟩ then (N.get p).map (fun o => (c, o.idx))
      else if ∃ i, A.get p = some ⟨i, b⟩ then none else reg.get (p, b) := by
    intro p b
    rw [prune_get c N A reg1 hA p b, h2 p b]
    cases hAp : A.get p with
    | none =>
      simp only
      cases hNp : N.get p with
      | none => simp
      | some o =>
        by_cases hb : o.tls = b
        · have hex : ∃ i, some o = some (⟨i, b⟩ : Opt) := ⟨o.idx, by rw [Option.some.injEq, eq_opt]; exact ⟨rfl, hb⟩⟩
          simp only [hb, if_true, hex, Option.map_some]
          cases hg : reg.get (p, b) with
          | none => rfl
          | some x =>
            obtain ⟨c', i'⟩ := x
            have := h3 p o c' i' hNp (by rw [hb]; exact hg)
            subst this
            have := (ho p b i').mp hg
            rw [hAp] at this; simp at this
        · have hex : ¬ ∃ i, some o = some (⟨i, b⟩ : Opt) := by
            rintro ⟨i, hi⟩; rw [Option.some.injEq, eq_opt] at hi; exact hb hi.2
          simp only; rw [if_neg hb, if_neg hex, if_neg (by simp)]
    | some oo =>
      simp only
      by_cases hb : oo.tls = b
      · have hexA : ∃ i, some oo = some (⟨i, b⟩ : Opt) := ⟨oo.idx, by rw [Option.some.injEq, eq_opt]; exact ⟨rfl, hb⟩⟩
        have hown : reg.get (p, b) = some (c, oo.idx) := (ho p b oo.idx).mpr (by rw [hAp, Option.some.injEq, eq_opt]; exact ⟨rfl, hb⟩)
        simp only [hb, if_true]
        cases hNp : N.get p with
        | none => rw [if_pos hexA, if_neg (by simp)]
        | some o =>
          simp only
          by_cases hb' : o.tls = b
          · have hex : ∃ i, some o = some (⟨i, b⟩ : Opt) := ⟨o.idx, by rw [Option.some.injEq, eq_opt]; exact ⟨rfl, hb'⟩⟩
            simp only [hb', if_true, hex, Option.map_some, hown]
            by_cases hi : oo.idx = o.idx
            · simp [hi]
            · simp [hi]
          · have hex : ¬ ∃ i, some o = some (⟨i, b⟩ : Opt) := by
              rintro ⟨i, hi⟩; rw [Option.some.injEq, eq_opt] at hi; exact hb' hi.2
            rw [if_neg hb', if_neg hex, if_pos hexA]
      · have hexA : ¬ ∃ i, some oo = some (⟨i, b⟩ : Opt) := by
          rintro ⟨i, hi⟩; rw [Option.some.injEq, eq_opt] at hi; exact hb hi.2
        simp only [hb, if_false, hexA]
        cases hNp : N.get p with
        | none => simp
        | some o =>
          by_cases hb' : o.tls = b
          · have hex : ∃ i, some o = some (⟨i, b⟩ : Opt) := ⟨o.idx, by rw [Option.some.injEq, eq_opt]; exact ⟨rfl, hb'⟩⟩
            simp only [hb', if_true, hex, Option.map_some]
            cases hg : reg.get (p, b) with
            | none => rfl
            | some x =>
              obtain ⟨c', i'⟩ := x
              have := h3 p o c' i' hNp (by rw [hb']; exact hg)
              subst this
              have := (ho p b i').mp hg
              rw [hAp, Option.some.injEq, eq_opt] at this; exact absurd this.2 hb
          · have hex : ¬ ∃ i, some o = some (⟨i, b⟩ : Opt) := by
              rintro ⟨i, hi⟩; rw [Option.some.injEq, eq_opt] at hi; exact hb' hi.2
            simp only [hb', if_false, hex]
  refine ⟨⟨?_, ?_⟩, ?_⟩
  · intro p b i
    rw [key p b]
    split
    · rename_i hx
      obtain ⟨j, hj⟩ := hx
      rw [hj]
      simp
    · rename_i hx
      have hx' : ∀ i, N.get p ≠ some ⟨i, b⟩ := fun i hi => hx ⟨i, hi⟩
      split
      · simp [hx']
      · rename_i hy
        constructor
        · intro hg; exact absurd ⟨i, (ho p b i).mp hg⟩ hy
        · intro hg; exact absurd hg (hx' i)
  · intro p oo hp hno
    rw [key p oo.tls, if_neg (by rintro ⟨i, hi⟩; exact hno i hi), if_pos ⟨oo.idx, by rw [hp]⟩]
  · rintro c' ⟨p, b⟩ i hc
    rw [key p b]
    split
    · rename_i hx
      obtain ⟨j, hj⟩ := hx
      rw [hj]
      simp only [Option.map_some, Option.some.injEq, Prod.mk.injEq]
      constructor
      · rintro ⟨rfl, _⟩; exact absurd rfl hc
      · intro hg
        have := h3 p ⟨j, b⟩ c' i hj hg
        exact absurd this hc
    · split
      · rename_i hy
        obtain ⟨j, hj⟩ := hy
        have := (ho p b j).mpr hj
        rw [this]
        simp only [Option.some.injEq, Prod.mk.injEq]
        constructor
        · intro h; simp at h
        · rintro ⟨rfl, _⟩; exact absurd rfl hc
      · exact Iff.rfl

/-- Pruning the same prefixes again changes nothing. -/
theorem prune_clean {reg : Reg} {c : Nat} {A N : Ids} (hA : A.keys.Nodup) (h : Clean reg c N A) (k : String × Bool) :
    (prune c N A reg).get k = reg.get k := by
  obtain ⟨p, b⟩ := k
  rw [prune_get c N A reg hA p b]
  cases hAp : A.get p with
  | none => rfl
  | some oo =>
    simp only
    split
    · rename_i hb
      subst hb
      cases hNp : N.get p with
      | none => simp only; rw [h.2 p oo hAp (by intro i; rw [hNp]; simp)]
      | some o =>
        simp only
        split
        · rename_i hb
          split
          · rfl
          · rw [(h.1 p oo.tls o.idx).mpr (by rw [hNp, Option.some.injEq, eq_opt]; exact ⟨rfl, hb⟩)]
        · rename_i hb
          rw [h.2 p oo hAp (by intro i; rw [hNp, ne_eq, Option.some.injEq, eq_opt]; rintro ⟨_, hx⟩; exact hb hx)]
    · rfl

theorem Owns.congr {reg reg' : Reg} {c : Nat} {A : Ids} (h : Owns reg c A) (he : ∀ k, reg'.get k = reg.get k) : Owns reg' c A := by
  intro p b i; rw [he]; exact h p b i

theorem Clean.congr {reg reg' : Reg} {c : Nat} {A N : Ids} (h : Clean reg c N A) (he : ∀ k, reg'.get k = reg.get k) : Clean reg' c N A :=
  ⟨h.1.congr he, fun p oo hp hno => by rw [he]; exact h.2 p oo hp hno⟩

/-- Removing the prefixes a client owns removes exactly its entries. -/
theorem removeAll_owned {reg : Reg} {c : Nat} {A : Ids} (hA : A.keys.Nodup) (ho : Owns reg c A) :
    (∀ k i, (removeAll A reg).get k ≠ some (c, i)) ∧ Others c reg (removeAll A reg) := by
  constructor
  · rintro ⟨p, b⟩ i hg
    rw [removeAll_get A reg hA p b] at hg
    cases hAp : A.get p with
    | none =>
      rw [hAp] at hg; simp only at hg
      have := (ho p b i).mp hg; rw [hAp] at this; simp at this
    | some o =>
      rw [hAp] at hg; simp only at hg
      split at hg
      · simp at hg
      · rename_i hb
        have := (ho p b i).mp hg; rw [hAp, Option.some.injEq, eq_opt] at this; exact hb this.2
  · rintro c' ⟨p, b⟩ i hc
    rw [removeAll_get A reg hA p b]
    cases hAp : A.get p with
    | none => exact Iff.rfl
    | some o =>
      simp only
      split
      · rename_i hb
        have := (ho p b o.idx).mpr (by rw [hAp, Option.some.injEq, eq_opt]; exact ⟨rfl, hb⟩)
        rw [this]
        simp only [Option.some.injEq, Prod.mk.injEq]
        constructor
        · intro h; simp at h
        · rintro ⟨rfl, _⟩; exact absurd rfl hc
      · exact Iff.rfl

/-! ## The registry of a server -/

/-- `own` says which prefixes each client object holds; dead ones hold none. -/
structure Ex (own : Nat → Ids) (s : Srv) : Prop where
  nd : ∀ c, (own c).keys.Nodup
  live : ∀ c cl l, s.clis.get c = some cl → cl.tunnels = some l → Owns s.reg c (own c)
  dead : ∀ c, (∀ cl l, s.clis.get c = some cl → cl.tunnels ≠ some l) → ∀ k i, s.reg.get k ≠ some (c, i)

theorem Ex.setTun {own} {s : Srv} (h : Ex own s) (t : Nat) (x : Tun) : Ex own (setTun s t x) := ⟨h.nd, h.live, h.dead⟩

theorem Ex.setCli {own} {s : Srv} (h : Ex own s) (c : Nat) (cl x : Cli) (hc : s.clis.get c = some cl)
    (hx : x.tunnels = none ↔ cl.tunnels = none) : Ex own (setCli s c x) := by
  refine ⟨h.nd, ?_, ?_⟩
  · intro c' cl' l hg hl
    rw [setCli_clis] at hg
    split at hg
    · rename_i he; subst he; simp at hg; subst hg
      cases ht : cl.tunnels with
      | none => rw [hx.mpr ht] at hl; simp at hl
      | some l' => exact h.live c cl l' hc ht
    · exact h.live c' cl' l hg hl
  · intro c' hd
    refine h.dead c' ?_
    intro cl' l hg hl
    by_cases he : c = c'
    · subst he
      rw [hc] at hg; simp at hg; subst hg
      cases ht : x.tunnels with
      | none => rw [hx.mp ht] at hl; simp at hl
      | some l' => exact hd x l' (by rw [setCli_clis]; simp) ht
    · exact hd cl' l (by rw [setCli_clis, if_neg he]; exact hg) hl

/-- A tunnel leaves: if it is the client's last, its prefixes must be those of the client. -/
theorem Ex.removeTunnel {own} {s : Srv} (hw : WF s) (h : Ex own s) (c t : Nat)
    (hok : ∀ cl tt, s.clis.get c = some cl → cl.tunnels = some [t] → s.tuns.get t = some tt → tt.ids = own c) :
    Ex own (removeTunnel s c t) := by
  unfold Registry.removeTunnel
  split
  · exact h
  · rename_i cl hc
    split
    · exact h
    · rename_i l hl
      split
      · rename_i ht
        simp only
        split
        · rename_i hemp
          have hl1 : l = [t] := by
            match l, ht, hemp with
            | [x], ht, _ => simp at ht; rw [ht]
            | x :: y :: r, ht, hemp =>
              exfalso
              simp only [List.isEmpty_iff] at hemp
              have := List.length_erase_of_mem ht
              rw [hemp] at this; simp at this
          subst hl1
          obtain ⟨tt, htt⟩ := hw.w4 c cl [t] t hc hl (by simp)
          have hids := hok cl tt hc hl htt
          obtain ⟨e1, e2, e3, e4, e5, _⟩ := removeClient_frame (Registry.setCli s c { cl with tunnels := none }) cl.id
          have hgt : (removeClient (Registry.setCli s c { cl with tunnels := none }) cl.id).tuns.get t = some tt := by rw [e5]; exact htt
          rw [hgt]
          simp only
          obtain ⟨r1, r2⟩ := removeAll_owned (reg := s.reg) (c := c) (A := own c) (h.nd c) (h.live c cl _ hc hl)
          have hreg : (removeClient (Registry.setCli s c { cl with tunnels := none }) cl.id).reg = s.reg := e4
          refine ⟨h.nd, ?_, ?_⟩
          · intro c' cl' l' hg hl'
            simp only [e2, setCli_clis, hreg, hids] at hg ⊢
            split at hg
            · simp at hg; subst hg; simp at hl'
            · rename_i hne
              intro p b i
              rw [r2 c' (p, b) i (Ne.symm hne)]
              exact h.live c' cl' l' hg hl' p b i
          · intro c' hd k i
            simp only [hreg, hids]
            by_cases hne : c' = c
            · subst hne; exact r1 k i
            · intro hg
              rw [r2 c' k i hne] at hg
              refine h.dead c' ?_ k i hg
              intro cl' l' hg' hl'
              exact hd cl' l' (by simp only [e2, setCli_clis]; rw [if_neg (Ne.symm hne)]; exact hg') hl'
        · exact h.setCli c cl _ hc (by simp [hl])
      · exact h

/-- Facts about `removeTunnel` on other parts of the state. -/
theorem removeTunnel_last (s : Srv) (c t c' : Nat) (cl' : Cli) (hg : (removeTunnel s c t).clis.get c' = some cl') :
    ∃ cl, s.clis.get c' = some cl ∧ cl'.last = cl.last ∧ cl'.id = cl.id ∧ (∀ l', cl'.tunnels = some l' → ∃ l, cl.tunnels = some l ∧
      (l' = l ∨ (l' ≠ [] ∧ l' = l.erase t ∧ c' = c))) := by
  have base : ∀ x, s.clis.get c' = some x → ∃ cl, s.clis.get c' = some cl ∧ x.last = cl.last ∧ x.id = cl.id ∧
      (∀ l', x.tunnels = some l' → ∃ l, cl.tunnels = some l ∧ (l' = l ∨ (l' ≠ [] ∧ l' = l.erase t ∧ c' = c))) :=
    fun x hx => ⟨x, hx, rfl, rfl, fun l' h => ⟨l', h, Or.inl rfl⟩⟩
  unfold removeTunnel at hg
  split at hg
  · exact base _ hg
  · rename_i cl hc
    split at hg
    · exact base _ hg
    · rename_i l hl
      split at hg
      · simp only at hg
        have hdrop : ∀ x, (removeClient (setCli s c { cl with tunnels := none }) cl.id).clis.get c' = some x →
            ∃ cl, s.clis.get c' = some cl ∧ x.last = cl.last ∧ x.id = cl.id ∧ (∀ l', x.tunnels = some l' → ∃ l, cl.tunnels = some l ∧
            (l' = l ∨ (l' ≠ [] ∧ l' = l.erase t ∧ c' = c))) := by
          intro x hx
          rw [(removeClient_frame _ _).2.1, setCli_clis] at hx
          split at hx
          · rename_i he; subst he; simp at hx; subst hx
            exact ⟨cl, hc, rfl, rfl, by intro l' h; simp at h⟩
          · exact base _ hx
        split at hg
        · split at hg
          · exact hdrop _ hg
          · exact hdrop _ hg
        · rename_i hne
          rw [setCli_clis] at hg
          split at hg
          · rename_i he; subst he; simp at hg; subst hg
            refine ⟨cl, hc, rfl, rfl, ?_⟩
            intro l' h; simp at h; subst h
            exact ⟨l, hl, Or.inr ⟨by simpa using hne, rfl, rfl⟩⟩
          · exact base _ hg
      · exact base _ hg

/-- After `removeTunnel` the tunnel is not in the client. -/
theorem removeTunnel_gone {s : Srv} (hw : WF s) (c t : Nat) (cl' : Cli) (l : List Nat)
    (hg : (removeTunnel s c t).clis.get c = some cl') (hl : cl'.tunnels = some l) : t ∉ l := by
  unfold removeTunnel at hg
  split at hg
  · rename_i hc; rw [hc] at hg; simp at hg
  · rename_i cl hc
    split at hg
    · rename_i hn
      rw [hc] at hg; simp at hg; subst hg; rw [hn] at hl; simp at hl
    · rename_i l0 hl0
      have hnd := (hw.w2 c cl l0 hc hl0).2.1
      split at hg
      · simp only at hg
        have hdrop : ∀ x, (removeClient (setCli s c { cl with tunnels := none }) cl.id).clis.get c = some x → x.tunnels = none := by
          intro x hx
          rw [(removeClient_frame _ _).2.1, setCli_clis] at hx
          simp at hx; subst hx; rfl
        split at hg
        · split at hg
          · rw [hdrop _ hg] at hl; simp at hl
          · rw [hdrop _ hg] at hl; simp at hl
        · rw [setCli_clis] at hg; simp at hg; subst hg; simp at hl; subst hl
          exact hnd.not_mem_erase
      · rename_i ht
        rw [hc] at hg; simp at hg; subst hg; rw [hl0] at hl; simp at hl; subst hl; exact ht

end Verif.Registry
