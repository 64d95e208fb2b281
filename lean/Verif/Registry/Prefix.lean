import Verif.Registry.PrefixInv
set_option linter.unusedSimpArgs false
set_option linter.unusedVariables false
/-! # C24: the registry is exact in every tame history -/
namespace Verif.Registry
open Verif

/-! ## Tame histories -/

/-- If the tunnel is the last one of its client, it runs the client's current configuration. -/
def LeaveOK (s : Srv) (t : Nat) : Prop :=
  ∀ tt c cl, s.tuns.get t = some tt → c ∈ tt.clis → s.clis.get c = some cl → cl.tunnels = some [t] → tt.cs = cl.last

/-- The event does not hit one of the gaps of the code:
* checksums identify the prefixes (`cfg`; SHA-256 of the services, 0 is the zero checksum);
* a reload comes from a live tunnel, under the id it is live for;
* a *new* configuration arrives only when no reload of the client is half-way (all its tunnels run its current
  configuration), and its TCP ports fail to open only if the client has no other tunnel;
* the last tunnel of a client leaves only with the client's current configuration. -/
def Tame (cfg : Nat → Ids) (s : Srv) : Ev → Prop
  | .auth t id sec o ans => o.cs ≠ 0 ∧ o.ids = cfg o.cs ∧ (¬ Accepts s id sec ans → LeaveOK s t)
  | .badOptions t => LeaveOK s t
  | .close t => LeaveOK s t
  | .join t k => LeaveOK s t ∧ ∀ tt id u o r, s.tuns.get t = some tt → tt.phase = .authed id u o r →
      (r = true → Live s id t) ∧
      ∀ c cl l, s.id2cli.get id = some c → s.clis.get c = some cl → cl.tunnels = some l → cl.last ≠ o.cs →
        (∀ t' ∈ l, ∀ tt', s.tuns.get t' = some tt' → tt'.cs = cl.last) ∧ (portsFail cl o k = true → l = [] ∨ l = [t])
  | _ => True

def TameRun (cfg : Nat → Ids) : Srv → List Ev → Prop
  | _, [] => True
  | s, e :: es => Tame cfg s e ∧ TameRun cfg (step s e) es

/-! ## Invariant -/

structure PB (cfg : Nat → Ids) (s : Srv) : Prop where
  ids : ∀ t tt, s.tuns.get t = some tt → tt.ids = cfg tt.cs
  emp : ∀ c cl, s.clis.get c = some cl → cl.tunnels = some [] → cl.last = 0
  mem : ∀ c cl l t tt, s.clis.get c = some cl → cl.tunnels = some l → t ∈ l → s.tuns.get t = some tt → c ∈ tt.clis
  fresh : ∀ t tt, s.tuns.get t = some tt → (tt.phase = .fresh ∨ ∃ id u o, tt.phase = .authed id u o false) →
    tt.cs = 0 ∧ tt.clis = []
  pend : ∀ t tt id u o r, s.tuns.get t = some tt → tt.phase = .authed id u o r → o.cs ≠ 0 ∧ o.ids = cfg o.cs
  one : ∀ t c cl l c' cl' l', s.clis.get c = some cl → cl.tunnels = some l → t ∈ l →
    s.clis.get c' = some cl' → cl'.tunnels = some l' → t ∈ l' → c = c'

structure PI (cfg : Nat → Ids) (s : Srv) : Prop where
  base : PB cfg s
  ex : ∃ own, Ex own s ∧ ∀ c cl l, s.clis.get c = some cl → cl.tunnels = some l → own c = cfg cl.last

/-- Like `PI`, but a client whose only tunnel is `t` may hold the prefixes of `t`. -/
structure PF (cfg : Nat → Ids) (s : Srv) (t : Nat) : Prop where
  base : PB cfg s
  ex : ∃ own, Ex own s ∧ (∀ c cl l, s.clis.get c = some cl → cl.tunnels = some l → l ≠ [t] → own c = cfg cl.last) ∧
    (∀ tt c cl, s.tuns.get t = some tt → s.clis.get c = some cl → cl.tunnels = some [t] → tt.ids = own c)

variable {cfg : Nat → Ids}

theorem PF.of {s : Srv} (h : PI cfg s) {t : Nat} (hl : LeaveOK s t) : PF cfg s t := by
  obtain ⟨own, e1, e2⟩ := h.ex
  refine ⟨h.base, own, e1, fun c cl l a b _ => e2 c cl l a b, ?_⟩
  intro tt c cl ht hc htun
  rw [h.base.ids t tt ht, e2 c cl _ hc htun]
  rw [hl tt c cl ht (h.base.mem c cl [t] t tt hc htun (by simp) ht) hc htun]

theorem foldRemove_ex {own} (t : Nat) (cs : List Nat) (s : Srv) (hw : WF s) (he : Ex own s)
    (hok : ∀ tt c cl, s.tuns.get t = some tt → s.clis.get c = some cl → cl.tunnels = some [t] → tt.ids = own c) :
    Ex own (cs.foldl (fun s c => removeTunnel s c t) s) := by
  induction cs generalizing s with
  | nil => exact he
  | cons c cs ih =>
    simp only [List.foldl_cons]
    refine ih _ (hw.removeTunnel c t) (he.removeTunnel hw c t (fun cl tt hc hl ht => hok tt c cl ht hc hl)) ?_
    intro tt c' cl' ht hc' hl'
    rw [(removeTunnel_sub s c t).2] at ht
    obtain ⟨cl, g1, _, _, g4⟩ := removeTunnel_last s c t c' cl' hc'
    obtain ⟨l, g5, g6⟩ := g4 _ hl'
    rcases g6 with g6 | ⟨_, _, g7⟩
    · subst g6; exact hok tt c' cl ht g1 g5
    · subst g7; exact absurd (by simp) (removeTunnel_gone hw c' t cl' [t] hc' hl')

/-- After all removals: clients keep their configuration, lose at most `t`. -/
theorem foldRemove_last (t : Nat) (cs : List Nat) (s : Srv) (hw : WF s) (c' : Nat) (cl' : Cli)
    (hg : (cs.foldl (fun s c => removeTunnel s c t) s).clis.get c' = some cl') :
    ∃ cl, s.clis.get c' = some cl ∧ cl'.last = cl.last ∧ (∀ l', cl'.tunnels = some l' → ∃ l, cl.tunnels = some l ∧
      (l' = l ∨ (l' ≠ [] ∧ ∀ x ∈ l', x ∈ l)) ∧ (c' ∈ cs → t ∉ l')) := by
  induction cs generalizing s with
  | nil => exact ⟨cl', hg, rfl, fun l' h => ⟨l', h, Or.inl rfl, by simp⟩⟩
  | cons c cs ih =>
    simp only [List.foldl_cons] at hg
    obtain ⟨cl1, a1, a2, a3⟩ := ih _ (hw.removeTunnel c t) hg
    obtain ⟨cl, b1, b2, _, b4⟩ := removeTunnel_last s c t c' cl1 a1
    refine ⟨cl, b1, a2.trans b2, ?_⟩
    intro l' hl'
    obtain ⟨l1, d1, d2, d3⟩ := a3 l' hl'
    obtain ⟨l, e1, e2⟩ := b4 l1 d1
    refine ⟨l, e1, ?_, ?_⟩
    · rcases e2 with rfl | ⟨e2, rfl, _⟩
      · exact d2
      · right
        rcases d2 with rfl | ⟨d2, d2'⟩
        · exact ⟨e2, fun x hx => List.mem_of_mem_erase hx⟩
        · exact ⟨d2, fun x hx => List.mem_of_mem_erase (d2' x hx)⟩
    · intro hm
      by_cases hc' : c' ∈ cs
      · exact d3 hc'
      · simp only [List.mem_cons, hc', or_false] at hm
        subst hm
        have := removeTunnel_gone hw c' t cl1 l1 a1 d1
        rcases d2 with rfl | ⟨_, d2'⟩
        · exact this
        · exact fun hx => this (d2' t hx)

theorem PF.finish {s : Srv} (hw : WF s) {t : Nat} (h : PF cfg s t) : PI cfg (finish s t) := by
  obtain ⟨own, e1, e2, e3⟩ := h.ex
  unfold Registry.finish
  split
  · rename_i hn
    refine ⟨h.base, own, e1, fun c cl l a b => e2 c cl l a b ?_⟩
    rintro rfl
    obtain ⟨tt, htt⟩ := hw.w4 c cl [t] t a b (by simp)
    rw [hn] at htt; simp at htt
  · rename_i tt0 htt0
    simp only
    have hex := foldRemove_ex t tt0.clis s hw e1 e3
    have hlast := foldRemove_last t tt0.clis s hw
    have htuns := (foldRemove_sub t tt0.clis s).2
    generalize (tt0.clis.foldl (fun s c => removeTunnel s c t) s) = s1 at hex hlast htuns
    have hclean : ∀ c cl l, s1.clis.get c = some cl → cl.tunnels = some l → t ∉ l := by
      intro c cl' l' hc hl ht
      obtain ⟨cl, a, _, b⟩ := hlast c cl' hc
      obtain ⟨l, b1, b2, b3⟩ := b l' hl
      have htl : t ∈ l := by
        rcases b2 with rfl | ⟨_, b2⟩
        · exact ht
        · exact b2 t ht
      exact b3 (h.base.mem c cl l t tt0 a b1 htl htt0) ht
    have hs1 : s1.tuns.get t = some tt0 := by rw [htuns]; exact htt0
    rw [hs1]
    simp only
    refine ⟨⟨?_, ?_, ?_, ?_, ?_, ?_⟩, own, hex.setTun t _, ?_⟩
    · intro t' tt' hg
      rw [setTun_tuns] at hg
      split at hg
      · simp at hg; subst hg; exact h.base.ids t tt0 htt0
      · rw [htuns] at hg; exact h.base.ids t' tt' hg
    · intro c cl' hc hl
      obtain ⟨cl, a, a2, b⟩ := hlast c cl' hc
      obtain ⟨l, b1, b2, b3⟩ := b [] hl
      rcases b2 with rfl | ⟨b2, _⟩
      · rw [a2]; exact h.base.emp c cl a b1
      · exact absurd rfl b2
    · intro c cl' l' t' tt' hc hl ht hg
      obtain ⟨cl, a, a2, b⟩ := hlast c cl' hc
      obtain ⟨l, b1, b2, b3⟩ := b l' hl
      have htl : t' ∈ l := by
        rcases b2 with rfl | ⟨_, b2⟩
        · exact ht
        · exact b2 t' ht
      rw [setTun_tuns] at hg
      split at hg
      · rename_i he; subst he; exact absurd ht (hclean c cl' l' hc hl)
      · rw [htuns] at hg; exact h.base.mem c cl l t' tt' a b1 htl hg
    · intro t' tt' hg hp
      rw [setTun_tuns] at hg
      split at hg
      · simp at hg; subst hg; simp at hp
      · rw [htuns] at hg; exact h.base.fresh t' tt' hg hp
    · intro t' tt' id u o r hg hp
      rw [setTun_tuns] at hg
      split at hg
      · simp at hg; subst hg; simp at hp
      · rw [htuns] at hg; exact h.base.pend t' tt' id u o r hg hp
    · intro t' c cl' l' c2 cl2' l2' hc hl ht hc2 hl2 ht2
      obtain ⟨cl, a, _, b⟩ := hlast c cl' hc
      obtain ⟨l, b1, b2, _⟩ := b l' hl
      obtain ⟨cl2, a2, _, d⟩ := hlast c2 cl2' hc2
      obtain ⟨l2, d1, d2, _⟩ := d l2' hl2
      have h1 : t' ∈ l := by
        rcases b2 with rfl | ⟨_, b2⟩
        · exact ht
        · exact b2 t' ht
      have h2 : t' ∈ l2 := by
        rcases d2 with rfl | ⟨_, d2⟩
        · exact ht2
        · exact d2 t' ht2
      exact h.base.one t' c cl l c2 cl2 l2 a b1 h1 a2 d1 h2
    · intro c cl' l' hc hl
      obtain ⟨cl, a, a2, b⟩ := hlast c cl' hc
      obtain ⟨l, b1, b2, b3⟩ := b l' hl
      rw [a2]
      by_cases hlt : l = [t]
      · exfalso
        subst hlt
        have hcm := h.base.mem c cl [t] t tt0 a b1 (by simp) htt0
        have := b3 hcm
        rcases b2 with rfl | ⟨b2, b2'⟩
        · simp at this
        · cases l' with
          | nil => exact b2 rfl
          | cons x xs =>
            have := b2' x (by simp)
            simp at this; subst this
            exact absurd (by simp) (b3 hcm)
      · exact e2 c cl l a b1 hlt

theorem PI.setTun {s : Srv} (h : PI cfg s) (t : Nat) (x : Tun) (tt : Tun) (ht : s.tuns.get t = some tt) (hi : x.ids = cfg x.cs)
    (hcs : x.cs = tt.cs) (hc : x.clis = tt.clis)
    (hf : (x.phase = .fresh ∨ ∃ id u o, x.phase = .authed id u o false) → x.cs = 0 ∧ x.clis = [])
    (hp : ∀ id u o r, x.phase = .authed id u o r → o.cs ≠ 0 ∧ o.ids = cfg o.cs) : PI cfg (setTun s t x) := by
  obtain ⟨own, e1, e2⟩ := h.ex
  refine ⟨⟨?_, h.base.emp, ?_, ?_, ?_, h.base.one⟩, own, e1.setTun t x, e2⟩
  · intro t' tt' hg
    rw [setTun_tuns] at hg
    split at hg
    · simp at hg; subst hg; exact hi
    · exact h.base.ids t' tt' hg
  · intro c cl l t' tt' a b d hg
    rw [setTun_tuns] at hg
    split at hg
    · rename_i he; subst he; simp at hg; subst hg
      rw [hc]; exact h.base.mem c cl l t tt a b d ht
    · exact h.base.mem c cl l t' tt' a b d hg
  · intro t' tt' hg hx
    rw [setTun_tuns] at hg
    split at hg
    · simp at hg; subst hg; exact hf hx
    · exact h.base.fresh t' tt' hg hx
  · intro t' tt' id u o r hg hx
    rw [setTun_tuns] at hg
    split at hg
    · simp at hg; subst hg; exact hp id u o r hx
    · exact h.base.pend t' tt' id u o r hg hx

/-- Fields other than registry, clients and tunnels do not matter. -/
theorem PI.frame {s s' : Srv} (h : PI cfg s) (h1 : s'.clis = s.clis) (h2 : s'.tuns = s.tuns) (h3 : s'.reg = s.reg) : PI cfg s' := by
  obtain ⟨own, e1, e2⟩ := h.ex
  refine ⟨⟨by rw [h2]; exact h.base.ids, by rw [h1]; exact h.base.emp, by rw [h1, h2]; exact h.base.mem,
    by rw [h2]; exact h.base.fresh, by rw [h2]; exact h.base.pend, by rw [h1]; exact h.base.one⟩, own,
    ⟨e1.nd, by rw [h1, h3]; exact e1.live, by rw [h1, h3]; exact e1.dead⟩, by rw [h1]; exact e2⟩

/-- The base part after a join. -/
theorem PB.join {s s2 : Srv} (h : PB cfg s) {c t : Nat} {cl x : Cli} {l l2 : List Nat} {tt tt2 : Tun}
    (hc : s.clis.get c = some cl) (hl : cl.tunnels = some l) (ht : s.tuns.get t = some tt)
    (hclis : ∀ c', s2.clis.get c' = if c = c' then some x else s.clis.get c')
    (htuns : ∀ t', s2.tuns.get t' = if t = t' then some tt2 else s.tuns.get t')
    (hx : x.tunnels = some l2) (hsub : ∀ y ∈ l2, y ∈ l ∨ y = t)
    (hemp : l2 = [] → x.last = 0) (hi : tt2.ids = cfg tt2.cs) (hcl : tt2.clis = insertT tt.clis c) (hp : tt2.phase = .up)
    (hnew : t ∈ l2 → t ∈ l ∨ tt.clis = []) : PB cfg s2 := by
  refine ⟨?_, ?_, ?_, ?_, ?_, ?_⟩
  · intro t' tt' hg
    rw [htuns] at hg
    split at hg
    · simp at hg; subst hg; exact hi
    · exact h.ids t' tt' hg
  · intro c' cl' hg hl'
    rw [hclis] at hg
    split at hg
    · simp at hg; subst hg; rw [hx] at hl'; simp at hl'; exact hemp hl'
    · exact h.emp c' cl' hg hl'
  · intro c' cl' l' t' tt' hg hl' ht' htg
    rw [hclis] at hg
    rw [htuns] at htg
    split at hg
    · rename_i he; subst he; simp at hg; subst hg; rw [hx] at hl'; simp at hl'; subst hl'
      split at htg
      · simp at htg; subst htg; rw [hcl, mem_insertT]; exact Or.inr rfl
      · rename_i hne
        rcases hsub t' ht' with h' | rfl
        · exact h.mem c cl l t' tt' hc hl h' htg
        · exact absurd rfl hne
    · split at htg
      · rename_i he; subst he; simp at htg; subst htg
        rw [hcl, mem_insertT]; left
        exact h.mem c' cl' l' t tt hg hl' ht' ht
      · exact h.mem c' cl' l' t' tt' hg hl' ht' htg
  · intro t' tt' hg hph
    rw [htuns] at hg
    split at hg
    · simp at hg; subst hg; rw [hp] at hph; simp at hph
    · exact h.fresh t' tt' hg hph
  · intro t' tt' id u o r hg hph
    rw [htuns] at hg
    split at hg
    · simp at hg; subst hg; rw [hp] at hph; simp at hph
    · exact h.pend t' tt' id u o r hg hph
  · -- a tunnel belongs to one client
    have key : ∀ t' c' cl' l', s2.clis.get c' = some cl' → cl'.tunnels = some l' → t' ∈ l' →
        (∃ cl0 l0, s.clis.get c' = some cl0 ∧ cl0.tunnels = some l0 ∧ t' ∈ l0) ∨ (t' = t ∧ c' = c ∧ tt.clis = []) := by
      intro t' c' cl' l' hg hl' ht'
      rw [hclis] at hg
      split at hg
      · rename_i he; subst he; simp at hg; subst hg; rw [hx] at hl'; simp at hl'; subst hl'
        rcases hsub t' ht' with h' | rfl
        · exact Or.inl ⟨cl, l, hc, hl, h'⟩
        · rcases hnew ht' with h' | h'
          · exact Or.inl ⟨cl, l, hc, hl, h'⟩
          · exact Or.inr ⟨rfl, rfl, h'⟩
      · exact Or.inl ⟨cl', l', hg, hl', ht'⟩
    have hnone : ∀ c' cl0 l0, tt.clis = [] → s.clis.get c' = some cl0 → cl0.tunnels = some l0 → t ∉ l0 := by
      intro c' cl0 l0 h0 hg hl0 hm
      have := h.mem c' cl0 l0 t tt hg hl0 hm ht
      rw [h0] at this; simp at this
    intro t' c1 cl1 l1 c2 cl2 l2' g1 g2 g3 k1 k2 k3
    rcases key t' c1 cl1 l1 g1 g2 g3 with ⟨a1, a2, a3, a4, a5⟩ | ⟨rfl, rfl, a3⟩
    · rcases key t' c2 cl2 l2' k1 k2 k3 with ⟨b1, b2, b3, b4, b5⟩ | ⟨rfl, rfl, b3⟩
      · exact h.one t' c1 a1 a2 c2 b1 b2 a3 a4 a5 b3 b4 b5
      · exact absurd a5 (hnone c1 a1 a2 b3 a3 a4)
    · rcases key t' c2 cl2 l2' k1 k2 k3 with ⟨b1, b2, b3, b4, b5⟩ | ⟨_, rfl, _⟩
      · exact absurd b5 (hnone c2 b1 b2 a3 b3 b4)
      · rfl

/-- Replacing the prefixes of one client. -/
theorem Ex.update {own} {s s2 : Srv} (h : Ex own s) {c : Nat} {cl x : Cli} {l2 : List Nat} {N : Ids}
    (hc : s.clis.get c = some cl)
    (hclis : ∀ c', s2.clis.get c' = if c = c' then some x else s.clis.get c')
    (hx : x.tunnels = some l2) (hn : N.keys.Nodup) (ho : Owns s2.reg c N) (hot : Others c s.reg s2.reg) :
    Ex (fun c' => if c' = c then N else own c') s2 := by
  refine ⟨?_, ?_, ?_⟩
  · intro c'; by_cases he : c' = c
    · simp only [he, if_true]; exact hn
    · simp only [he, if_false]; exact h.nd c'
  · intro c' cl' l' hg hl'
    rw [hclis] at hg
    by_cases he : c = c'
    · subst he; simp only [if_true]; exact ho
    · rw [if_neg he] at hg
      simp only [Ne.symm he, if_false]
      intro p b i
      rw [hot c' (p, b) i (Ne.symm he)]
      exact h.live c' cl' l' hg hl' p b i
  · intro c' hd k i hg
    by_cases he : c = c'
    · subst he; exact hd x l2 (by rw [hclis]; simp) hx
    · rw [hot c' k i (Ne.symm he)] at hg
      refine h.dead c' ?_ k i hg
      intro cl' l' h1 h2
      exact hd cl' l' (by rw [hclis, if_neg he]; exact h1) h2

theorem Ex.same {own} {s s2 : Srv} (h : Ex own s) {c : Nat} {cl x : Cli} {l l2 : List Nat}
    (hc : s.clis.get c = some cl) (hl : cl.tunnels = some l)
    (hclis : ∀ c', s2.clis.get c' = if c = c' then some x else s.clis.get c')
    (hx : x.tunnels = some l2) (hr : ∀ k, s2.reg.get k = s.reg.get k) : Ex own s2 := by
  refine ⟨h.nd, ?_, ?_⟩
  · intro c' cl' l' hg hl'
    rw [hclis] at hg
    by_cases he : c = c'
    · subst he; exact (h.live c cl l hc hl).congr hr
    · rw [if_neg he] at hg; exact (h.live c' cl' l' hg hl').congr hr
  · intro c' hd k i hg
    rw [hr] at hg
    refine h.dead c' ?_ k i hg
    intro cl' l' h1 h2
    by_cases he : c = c'
    · subst he; exact hd x l2 (by rw [hclis]; simp) hx
    · exact hd cl' l' (by rw [hclis, if_neg he]; exact h1) h2

/-- Closing the old tunnels of a client. -/
theorem dropOld_spec (c : Nat) (o : Options) (A : Ids) (P : Reg → Prop) (hP : ∀ r, P r → P (prune c o.ids A r))
    (ts : List Nat) (s : Srv) (cl : Cli) (l : List Nat) (hc : s.clis.get c = some cl) (hl : cl.tunnels = some l)
    (hts : ∀ t ∈ ts, ∃ tt, s.tuns.get t = some tt ∧ tt.ids = A) (hr : P s.reg) :
    ∃ x, (∀ c', (dropOld s c o ts).clis.get c' = if c = c' then some x else s.clis.get c') ∧
      x.tunnels = some (ts.foldl (fun l t => l.erase t) l) ∧ x.last = cl.last ∧ P (dropOld s c o ts).reg := by
  induction ts generalizing s cl l with
  | nil =>
    refine ⟨cl, ?_, hl, rfl, hr⟩
    intro c'
    by_cases he : c = c'
    · subst he; simp [dropOld, hc]
    · simp [dropOld, he]
  | cons t ts ih =>
    obtain ⟨tt, htt, hA⟩ := hts t (by simp)
    simp only [dropOld, hc, htt, hl, Option.map_some]
    obtain ⟨x, h1, h2, h3, h4⟩ := ih
      ({ setCli s c { cl with tunnels := some (l.erase t), black := lruAdd cl.black tt.cs } with reg := prune c o.ids tt.ids s.reg })
      { cl with tunnels := some (l.erase t), black := lruAdd cl.black tt.cs } (l.erase t)
      (by show (setCli s c _).clis.get c = _; rw [setCli_clis]; simp) rfl
      (fun t' ht' => hts t' (List.mem_cons_of_mem _ ht'))
      (by show P (prune c o.ids tt.ids s.reg); rw [hA]; exact hP _ hr)
    refine ⟨x, ?_, h2, h3, h4⟩
    intro c'
    refine (h1 c').trans ?_
    by_cases he : c = c'
    · simp [he]
    · simp only [he, if_false]
      show (setCli s c _).clis.get c' = _
      rw [setCli_clis, if_neg he]

theorem foldErase_mem (ts l : List Nat) (x : Nat) : (x ∈ ts.foldl (fun l t => l.erase t) l → x ∈ l) ∧
    (x ∈ l → x ∉ ts → x ∈ ts.foldl (fun l t => l.erase t) l) := by
  induction ts generalizing l with
  | nil => exact ⟨fun h => h, fun h _ => h⟩
  | cons t ts ih =>
    simp only [List.foldl_cons]
    obtain ⟨a, b⟩ := ih (l.erase t)
    refine ⟨fun h => List.mem_of_mem_erase (a h), fun h hn => ?_⟩
    simp only [List.mem_cons, not_or] at hn
    exact b ((List.mem_erase_of_ne hn.1).mpr h) hn.2

theorem insertT_ne_nil (l : List Nat) (t : Nat) : insertT l t ≠ [] := by
  unfold insertT
  split
  · rename_i h; intro h'; rw [h'] at h; simp at h
  · simp

theorem insertT_singleton {l : List Nat} {t : Nat} (h : insertT l t = [t]) : l = [] ∨ l = [t] := by
  unfold insertT at h
  split at h
  · exact Or.inr h
  · cases l with
    | nil => exact Or.inl rfl
    | cons a r => simp at h

end Verif.Registry
