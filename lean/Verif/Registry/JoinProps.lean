import Verif.Registry.PrefixProps
set_option linter.unusedSimpArgs false
set_option linter.unusedVariables false
/-! # C24: a client whose new configuration was accepted is reachable under all its prefixes -/
namespace Verif.Registry
open Verif

theorem dropOld_holds (c : Nat) (o : Options) (ts : List Nat) (s : Srv) (hT : ∀ t tt, s.tuns.get t = some tt → tt.ids.keys.Nodup)
    (hh : Holds c o.ids s.reg) : Holds c o.ids (dropOld s c o ts).reg := by
  induction ts generalizing s with
  | nil => exact hh
  | cons t ts ih =>
    simp only [dropOld]
    split
    · rename_i cl tt hc ht
      exact ih _ hT (prune_keep (hT t tt ht) hh (Keep.refl c _)).1
    · exact ih s hT hh

theorem addTunnel_holds (s : Srv) (c t : Nat) (r : Bool) (o : Options) (k : Bool) (cl : Cli)
    (hT : ∀ t tt, s.tuns.get t = some tt → tt.ids.keys.Nodup) (hN : o.ids.keys.Nodup) (hc : s.clis.get c = some cl)
    (hne : cl.last ≠ o.cs) (hok : (addTunnel s c t r o k).1 = .ok) : Holds c o.ids (addTunnel s c t r o k).2.reg := by
  unfold addTunnel at hok ⊢
  rw [hc] at hok ⊢
  cases ht : s.tuns.get t with
  | none => rw [ht] at hok; simp at hok
  | some tt =>
    rw [ht] at hok
    simp only at hok ⊢
    split at hok
    · simp at hok
    · rename_i h1
      simp only [h1, if_false]
      split at hok
      · simp at hok
      · rename_i l hl
        split at hok
        · simp at hok
        · rename_i h2
          simp only [h2, if_false]
          rw [if_neg hne]
          split at hok
          · simp at hok
          · rename_i reg hreg
            rw [show (setCli s c { cl with tunnels := some (insertT l t) }).reg = s.reg from rfl] at hreg
            have hh := (prune_keep (hT t tt ht) (regAdd_keep hN hreg).1 (Keep.refl c _)).1
            split at hok
            · simp at hok
            · rename_i h3
              rw [if_neg h3]
              by_cases hr : r = true
              · rw [if_pos hr]; exact hh
              · rw [if_neg hr]
                show Holds c o.ids (dropOld _ c o _).reg
                apply dropOld_holds
                case hh => exact hh
                intro t' tt' hg
                replace hg : (setTun { setCli s c { cl with tunnels := some (insertT l t) } with reg := prune c o.ids tt.ids reg } t
                  { tt with ids := o.ids, cs := o.cs }).tuns.get t' = some tt' := hg
                rw [setTun_tuns] at hg
                split at hg
                · simp at hg; subst hg; exact hN
                · exact hT t' tt' hg

theorem finish_gone (s : Srv) (t : Nat) (tt : Tun) (h : (finish s t).tuns.get t = some tt) : tt.phase = .gone := by
  unfold finish at h
  split at h
  · rename_i hn; rw [hn] at h; simp at h
  · simp only at h
    split at h
    · rw [setTun_tuns] at h; simp at h; rw [← h]
    · rename_i hn; rw [hn] at h; simp at h

/-- **C24, reachability.**  In any history: when a tunnel that was let in under `id` with options `o` joins and stays
up, and the configuration is new for the client (its last accepted checksum differs, in particular for a new
client), then every prefix of `o` is now routed to a client (in the protocol variant `o` asked for), and all of them
to the same one. -/
theorem accepted_join_is_routed (m : Mode) (tu : User) (us : AMap String User) (a : Bool) (es : List Ev)
    (hes : ∀ e ∈ es, EvOK e) (t : Nat) (k : Bool) (tt tt' : Tun) (id : String) (u : User) (o : Options) (r : Bool)
    (h1 : (run (start m tu us a) es).tuns.get t = some tt) (h2 : tt.phase = .authed id u o r)
    (hnew : ∀ c cl, (run (start m tu us a) es).id2cli.get id = some c → (run (start m tu us a) es).clis.get c = some cl →
      cl.last ≠ o.cs) (hz : o.cs ≠ 0)
    (h3 : (step (run (start m tu us a) es) (.join t k)).tuns.get t = some tt') (h4 : tt'.phase = .up) :
    ∃ c, ∀ p v, o.ids.get p = some v → ∃ i, (step (run (start m tu us a) es) (.join t k)).reg.get (p, v.tls) = some (c, i) := by
  have hrun : ∀ (es : List Ev) (s : Srv), WF s → MapsOK s → (∀ e ∈ es, EvOK e) → MapsOK (run s es) := by
    intro es
    induction es with
    | nil => exact fun s _ h _ => h
    | cons e es ih =>
      intro s hw hm hall
      exact ih _ (hw.step e) (step_maps hw hm e (hall e (by simp))).1 (fun e' he' => hall e' (List.mem_cons_of_mem _ he'))
  have hw := (WF.start m tu us a).run es
  have hm := hrun es (start m tu us a) (WF.start m tu us a) ⟨by simp [start], by simp [start]⟩ hes
  generalize run (start m tu us a) es = s at *
  have hN := hm.2 t tt id u o r h1 h2
  obtain ⟨f1, f2⟩ := getOrCreate_frame s id u
  have hT : ∀ t tt, (getOrCreate s id u).2.tuns.get t = some tt → tt.ids.keys.Nodup := by rw [f1]; exact hm.1
  have hcl : ∃ cl l, (getOrCreate s id u).2.clis.get (getOrCreate s id u).1 = some cl ∧ cl.tunnels = some l ∧ cl.last ≠ o.cs := by
    unfold getOrCreate
    cases hg : s.id2cli.get id with
    | some c' =>
      obtain ⟨cl, l, a1, _, a3⟩ := hw.w1 id c' hg
      exact ⟨cl, l, a1, a3, hnew c' cl hg a1⟩
    | none => exact ⟨⟨id, some [], u.conns, u.hasPM, 0, []⟩, [], by simp, rfl, by simpa using fun h => hz h.symm⟩
  obtain ⟨cl, l, hc, hl, hne⟩ := hcl
  have hnr : (addTunnel (getOrCreate s id u).2 (getOrCreate s id u).1 t r o k).1 ≠ .retry := by
    generalize (getOrCreate s id u).2 = s1 at *
    generalize (getOrCreate s id u).1 = c1 at *
    unfold addTunnel
    rw [hc]
    split
    · rename_i cl' tt hc' ht
      simp at hc'; subst hc'
      split
      · simp
      · rw [hl]
        simp only
        split
        · simp
        · split
          · simp
          · split
            · simp
            · split <;> simp
    · simp
  have hj := joinLoop_once hw t id u r o k 4 0 hnr
  simp only [step, h1, h2, hj] at h3 ⊢
  refine ⟨(getOrCreate s id u).1, ?_⟩
  have hh := fun hok => addTunnel_holds (getOrCreate s id u).2 (getOrCreate s id u).1 t r o k cl hT hN hc hne hok
  generalize addTunnel (getOrCreate s id u).2 (getOrCreate s id u).1 t r o k = q at *
  obtain ⟨res, s'⟩ := q
  simp only at h3 hh ⊢
  split at h3
  · rename_i tt2 ht2
    by_cases hok : res = .ok
    · rw [if_pos hok]
      exact hh hok
    · rw [if_neg hok] at h3
      rw [finish_gone _ _ _ h3] at h4
      cases h4
  · rename_i hn; rw [hn] at h3; simp at h3

/-- The first join of a client, with two prefixes. -/
example :
    let o : Options := { cs := 7, ids := [("a", ⟨0, false⟩), ("b", ⟨1, true⟩)], nports := 0 }
    let es : List Ev := [.accept 1, .auth 1 "u" "s" o none]
    let s := run (start .config ⟨"", false, 2, false⟩ [("u", ⟨"s", false, 2, false⟩)] false) es
    (∃ tt u, s.tuns.get 1 = some tt ∧ tt.phase = .authed "u" u o false) ∧
    ((step s (.join 1 true)).tuns.get 1).map (·.phase) = some .up := by
  refine ⟨⟨_, _, rfl, rfl⟩, by decide⟩

end Verif.Registry
