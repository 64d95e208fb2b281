import Verif.Registry.JoinProps
import Verif.Registry.Origin
set_option linter.unusedSimpArgs false
set_option linter.unusedVariables false
/-! # C24: a new client is reachable, each prefix at its own service, whatever happened on the server before -/
namespace Verif.Registry
open Verif

/-- Each prefix of `N` leads to client `c` and its own service. -/
def Exactly (c : Nat) (N : Ids) (reg : Reg) : Prop := ∀ p o, N.get p = some o → reg.get (p, o.tls) = some (c, o.idx)

theorem prune_exactly {c : Nat} {N A : Ids} {reg : Reg} (hA : A.keys.Nodup) (hh : Exactly c N reg) : Exactly c N (prune c N A reg) := by
  intro p o hp
  rw [prune_get c N A reg hA p o.tls]
  cases A.get p with
  | none => exact hh p o hp
  | some oo =>
    simp only [hp]
    split
    · split
      · split
        · exact hh p o hp
        · rfl
      · rename_i h; exact absurd trivial h
    · exact hh p o hp

theorem dropOld_exactly (c : Nat) (o : Options) (ts : List Nat) (s : Srv) (hT : ∀ t tt, s.tuns.get t = some tt → tt.ids.keys.Nodup)
    (hh : Exactly c o.ids s.reg) : Exactly c o.ids (dropOld s c o ts).reg := by
  induction ts generalizing s with
  | nil => exact hh
  | cons t ts ih =>
    simp only [dropOld]
    split
    · rename_i cl tt hc ht
      exact ih _ hT (prune_exactly (hT t tt ht) hh)
    · exact ih s hT hh

theorem regAdd_exactly {c : Nat} {N : Ids} {reg reg1 : Reg} (hN : N.keys.Nodup) (hfree : ∀ k i, reg.get k ≠ some (c, i))
    (h : regAdd c N reg [] = (reg1, true)) : Exactly c N reg1 := by
  obtain ⟨_, h2, h3⟩ := regAdd_get c N reg reg [] hN (by intro k; simp)
  rw [h] at h2 h3
  have h2 := h2 rfl
  have h3 := h3 rfl
  simp only at h2
  intro p o hp
  rw [h2, hp]
  simp only [if_true]
  cases hg : reg.get (p, o.tls) with
  | none => rfl
  | some x =>
    obtain ⟨c', i⟩ := x
    have := h3 p o c' i hp hg
    subst this
    exact absurd hg (hfree _ _)

theorem addTunnel_exactly (s : Srv) (c t : Nat) (r : Bool) (o : Options) (k : Bool) (cl : Cli)
    (hT : ∀ t tt, s.tuns.get t = some tt → tt.ids.keys.Nodup) (hN : o.ids.keys.Nodup) (hc : s.clis.get c = some cl)
    (hne : cl.last ≠ o.cs) (hfree : ∀ k i, s.reg.get k ≠ some (c, i)) (hok : (addTunnel s c t r o k).1 = .ok) :
    Exactly c o.ids (addTunnel s c t r o k).2.reg := by
  unfold addTunnel at hok ⊢
  rw [hc] at hok ⊢
  cases ht : s.tuns.get t with
  | none => rw [ht] at hok; simp at hok
  | some tt =>
    rw [ht] at hok
    simp only at hok ⊢
    split at hok
    · simp at hok
    · rename_i h1
      simp only [h1, if_false]
      split at hok
      · simp at hok
      · rename_i l hl
        split at hok
        · simp at hok
        · rename_i h2
          simp only [h2, if_false]
          rw [if_neg hne]
          split at hok
          · simp at hok
          · rename_i reg hreg
            rw [show (setCli s c { cl with tunnels := some (insertT l t) }).reg = s.reg from rfl] at hreg
            have hh := prune_exactly (hT t tt ht) (regAdd_exactly hN hfree hreg)
            split at hok
            · simp at hok
            · rename_i h3
              rw [if_neg h3]
              by_cases hr : r = true
              · rw [if_pos hr]; exact hh
              · rw [if_neg hr]
                show Exactly c o.ids (dropOld _ c o _).reg
                apply dropOld_exactly
                case hh => exact hh
                intro t' tt' hg
                replace hg : (setTun { setCli s c { cl with tunnels := some (insertT l t) } with reg := prune c o.ids tt.ids reg } t
                  { tt with ids := o.ids, cs := o.cs }).tuns.get t' = some tt' := hg
                rw [setTun_tuns] at hg
                split at hg
                · simp at hg; subst hg; exact hN
                · exact hT t' tt' hg

/-- The first tunnel of a new client is its only one. -/
theorem addTunnel_first (s : Srv) (c t : Nat) (r : Bool) (o : Options) (k : Bool) (cl : Cli) (hc : s.clis.get c = some cl)
    (hl : cl.tunnels = some []) (hne : cl.last ≠ o.cs) (hok : (addTunnel s c t r o k).1 = .ok) :
    ∃ cl', (addTunnel s c t r o k).2.clis.get c = some cl' ∧ cl'.tunnels = some [t] ∧ cl'.last = o.cs := by
  unfold addTunnel at hok ⊢
  rw [hc] at hok ⊢
  cases ht : s.tuns.get t with
  | none => rw [ht] at hok; simp at hok
  | some tt =>
    rw [ht] at hok
    simp only at hok ⊢
    split at hok
    · simp at hok
    · rename_i h1
      simp only [h1, if_false]
      rw [hl] at hok ⊢
      simp only at hok ⊢
      split at hok
      · simp at hok
      · rename_i h2
        simp only [h2, if_false]
        rw [if_neg hne]
        split at hok
        · simp at hok
        · rename_i reg hreg
          split at hok
          · simp at hok
          · rename_i h3
            rw [if_neg h3]
            by_cases hr : r = true
            · rw [if_pos hr]
              exact ⟨{ cl with tunnels := some [t], last := o.cs }, by simp [setCli, setTun, insertT], rfl, rfl⟩
            · rw [if_neg hr]
              have hold : ∀ s', (s' : Srv).tuns.get t = some { tt with ids := o.ids, cs := o.cs } →
                  oldTunnels s' (insertT [] t) o.cs = [] := by
                intro s' hs'
                simp [oldTunnels, insertT, hs']
              simp only
              rw [hold _ (by simp [setCli, setTun])]
              exact ⟨{ cl with tunnels := some [t], last := o.cs }, by simp [setCli, setTun, dropOld, insertT], rfl, rfl⟩

/-- **C24, reachability of a new client.**  In any history, with whatever failures: when a tunnel that was let in under `id`
with options `o` joins and stays up, and no client is connected under `id`, then there is a new client, connected through that tunnel
alone, and every prefix of `o` leads to it, in the variant `o` asked for, and to the service `o` names. -/
theorem first_join_is_routed_exactly (m : Mode) (tu : User) (us : AMap String User) (a : Bool) (es : List Ev)
    (hes : ∀ e ∈ es, EvOK e) (t : Nat) (k : Bool) (tt tt' : Tun) (id : String) (u : User) (o : Options) (r : Bool)
    (h1 : (run (start m tu us a) es).tuns.get t = some tt) (h2 : tt.phase = .authed id u o r)
    (hnew : (run (start m tu us a) es).id2cli.get id = none) (hz : o.cs ≠ 0)
    (h3 : (step (run (start m tu us a) es) (.join t k)).tuns.get t = some tt') (h4 : tt'.phase = .up) :
    ∃ c cl, (step (run (start m tu us a) es) (.join t k)).clis.get c = some cl ∧ cl.tunnels = some [t] ∧
      ∀ p v, o.ids.get p = some v →
        (step (run (start m tu us a) es) (.join t k)).reg.get (p, v.tls) = some (c, v.idx) := by
  have hrun : ∀ (es : List Ev) (s : Srv), WF s → MapsOK s → (∀ e ∈ es, EvOK e) → MapsOK (run s es) := by
    intro es
    induction es with
    | nil => exact fun s _ h _ => h
    | cons e es ih =>
      intro s hw hm hall
      exact ih _ (hw.step e) (step_maps hw hm e (hall e (by simp))).1 (fun e' he' => hall e' (List.mem_cons_of_mem _ he'))
  have hw := (WF.start m tu us a).run es
  have hm := hrun es (start m tu us a) (WF.start m tu us a) ⟨by simp [start], by simp [start]⟩ hes
  have hfree : ∀ key i, (run (start m tu us a) es).reg.get key ≠ some ((run (start m tu us a) es).nextCli, i) := by
    rintro ⟨p, b⟩ i hg
    obtain ⟨cl, hc, _⟩ := route_was_asked_for m tu us a es p b _ i hg
    have := hw.w3 _ cl hc
    omega
  generalize run (start m tu us a) es = s at *
  have hN := hm.2 t tt id u o r h1 h2
  obtain ⟨f1, f2⟩ := getOrCreate_frame s id u
  have hT : ∀ t tt, (getOrCreate s id u).2.tuns.get t = some tt → tt.ids.keys.Nodup := by rw [f1]; exact hm.1
  have hid : (getOrCreate s id u).1 = s.nextCli := by unfold getOrCreate; rw [hnew]
  have hreg : (getOrCreate s id u).2.reg = s.reg := by unfold getOrCreate; rw [hnew]
  have hcl : (getOrCreate s id u).2.clis.get (getOrCreate s id u).1 = some ⟨id, some [], u.conns, u.hasPM, 0, []⟩ := by
    unfold getOrCreate
    rw [hnew]; simp
  have hne : (0 : Nat) ≠ o.cs := fun h => hz h.symm
  have hnr : (addTunnel (getOrCreate s id u).2 (getOrCreate s id u).1 t r o k).1 ≠ .retry := by
    generalize (getOrCreate s id u).2 = s1 at *
    generalize (getOrCreate s id u).1 = c1 at *
    unfold addTunnel
    rw [hcl]
    split
    · rename_i cl' tt hc' ht
      simp at hc'; subst hc'
      split
      · simp
      · simp only
        split
        · simp
        · split
          · simp
          · split
            · simp
            · split <;> simp
    · simp
  have hj := joinLoop_once hw t id u r o k 4 0 hnr
  simp only [step, h1, h2, hj] at h3 ⊢
  have hh := fun hok => addTunnel_exactly (getOrCreate s id u).2 (getOrCreate s id u).1 t r o k _ hT hN hcl hne
    (by rw [hreg, hid]; exact hfree) hok
  have hf := fun hok => addTunnel_first (getOrCreate s id u).2 (getOrCreate s id u).1 t r o k _ hcl rfl hne hok
  rw [hid] at hh hf h3
  simp only [hid]
  refine ⟨s.nextCli, ?_⟩
  generalize addTunnel (getOrCreate s id u).2 s.nextCli t r o k = q at *
  obtain ⟨res, s'⟩ := q
  simp only at h3 hh hf ⊢
  split at h3
  · rename_i tt2 ht2
    by_cases hok : res = .ok
    · rw [if_pos hok]
      obtain ⟨cl', c1, c2, _⟩ := hf hok
      exact ⟨cl', c1, c2, hh hok⟩
    · rw [if_neg hok] at h3
      rw [finish_gone _ _ _ h3] at h4
      cases h4
  · rename_i hn; rw [hn] at h3; simp at h3

/-- A client `x` has left, and a failure left its prefix `b` behind (`tcp_failure_leaks_prefix`); `x` comes back, as a new client, and
is reachable under its other prefixes. -/
example :
    let o : Options := ⟨[("a", ⟨1, false⟩), ("c", ⟨0, true⟩)], 9, 0⟩
    let es : List Ev := [.accept 1, .auth 1 "x" "s" o1 none, .join 1 true, .accept 2, .auth 2 "x" "s" ⟨[("b", ⟨0, false⟩)], 7, 1⟩ none,
      .join 2 true, .close 1, .accept 3, .auth 3 "x" "s" o none]
    let s := run (start .anyNoUsers exUser [] false) es
    s.reg.get ("b", false) = some (0, 0) ∧ s.id2cli.get "x" = none ∧
    (∃ tt u, s.tuns.get 3 = some tt ∧ tt.phase = .authed "x" u o false) ∧
    ((step s (.join 3 true)).tuns.get 3).map (·.phase) = some .up ∧
    (step s (.join 3 true)).reg.get ("a", false) = some (1, 1) := by
  refine ⟨by decide +kernel, by decide +kernel, ⟨_, _, rfl, rfl⟩, by decide +kernel, by decide +kernel⟩

end Verif.Registry
