import Verif.Ports.Props
set_option linter.unusedSimpArgs false
set_option linter.unusedVariables false
/-! # C131 (part): nobody but the client itself closes its public ports

For every history, failed reopens (C27) included. -/
namespace Verif.Ports
open Verif

/-- Sockets recorded in the entries of a client were opened for that client; and the sockets that clients in `K` have in `base`
are still open. -/
structure KInv (K : Nat → Prop) (base s : St) : Prop where
  ent : ∀ c si l h p, (si, l) ∈ s.ls c → l.sock = some (h, p) →
    h < s.next ∧ ∀ v, AMap.get s.socks h = some v → v.2.1 = c
  fresh : ∀ h v, AMap.get s.socks h = some v → h < s.next
  keep : ∀ h p c si, K c → AMap.get base.socks h = some (p, c, si) → AMap.get s.socks h = some (p, c, si)

variable {P : Nat → Nat} {K : Nat → Prop} {base : St}

theorem KInv.release {s : St} {c h p : Nat} (hi : KInv K base s) (hk : ¬ K c)
    (hs : ∀ v, AMap.get s.socks h = some v → v.2.1 = c) : KInv K base (release s (P c) h p) := by
  have gs : ∀ h', AMap.get (Ports.release s (P c) h p).socks h' = if h = h' then none else AMap.get s.socks h' := by
    intro h'
    show AMap.get (AMap.del s.socks h) h' = _
    rw [AMap.get_del]
  refine ⟨?_, ?_, ?_⟩
  · intro c' si l h' p' hm hl
    obtain ⟨a, b⟩ := hi.ent c' si l h' p' hm hl
    refine ⟨a, fun v hv => ?_⟩
    rw [gs] at hv
    split at hv
    · cases hv
    · exact b v hv
  · intro h' v hv
    rw [gs] at hv
    split at hv
    · cases hv
    · exact hi.fresh h' v hv
  · intro h' p' c' si hc hb
    have h1 := hi.keep h' p' c' si hc hb
    rw [gs]
    split
    · rename_i e
      subst e
      have : c' = c := hs _ h1
      exact absurd (this ▸ hc) hk
    · exact h1

theorem KInv.setLs {s : St} {c : Nat} {m : AMap Nat Lis} (hi : KInv K base s)
    (hm : ∀ si l h p, (si, l) ∈ m → l.sock = some (h, p) → h < s.next ∧ ∀ v, AMap.get s.socks h = some v → v.2.1 = c) :
    KInv K base (setLs s c m) := by
  refine ⟨?_, hi.fresh, hi.keep⟩
  intro c' si l h p hl hs
  simp only [Ports.setLs] at hl
  split at hl
  · rename_i e; subst e; exact hm _ _ _ _ hl hs
  · exact hi.ent _ _ _ _ _ hl hs

theorem KInv.deleteLis {s : St} {c : Nat} (si : Nat) (hi : KInv K base s) (hk : ¬ K c) : KInv K base (deleteLis P s c si) := by
  unfold Ports.deleteLis
  split
  · exact hi
  · rename_i l hl
    have h1 : KInv K base (Ports.setLs s c (AMap.del (s.ls c) si)) :=
      hi.setLs (fun si' l' h p hm hs => hi.ent _ _ _ _ _ (mem_del hm) hs)
    simp only
    split
    · exact h1
    · rename_i h p hs
      exact h1.release hk (hi.ent _ _ _ _ _ (AMap.mem_of_get _ hl) hs).2

theorem KInv.deleteMany {s : St} {c : Nat} (sis : List Nat) (hi : KInv K base s) (hk : ¬ K c) :
    KInv K base (deleteMany P s c sis) := by
  induction sis generalizing s with
  | nil => exact hi
  | cons si r ih => simp only [Ports.deleteMany]; exact ih (hi.deleteLis si hk)

theorem KInv.openTCPPort {s : St} {c si : Nat} {l : Lis} {env : Env} (hi : KInv K base s) :
    KInv K base (openTCPPort P s c si l env).2 := by
  unfold Ports.openTCPPort
  split
  · rename_i p hc
    have gs : ∀ h', AMap.get (doOpen P s c si l.opt p).socks h' = if s.next = h' then some (p, c, si) else AMap.get s.socks h' := by
      intro h'
      show AMap.get (AMap.set s.socks s.next (p, c, si)) h' = _
      rw [AMap.get_set]
    have gn : (doOpen P s c si l.opt p).next = s.next + 1 := rfl
    refine ⟨?_, ?_, ?_⟩
    · intro c' si' l' h p' hm hs
      simp only [gs, gn]
      have old : (si', l') ∈ s.ls c' → h < s.next + 1 ∧
          ∀ v, (if s.next = h then some (p, c, si) else AMap.get s.socks h) = some v → v.2.1 = c' := by
        intro hm
        obtain ⟨a, b⟩ := hi.ent _ _ _ _ _ hm hs
        refine ⟨by omega, fun v hv => ?_⟩
        rw [if_neg (by omega)] at hv
        exact b v hv
      simp only [doOpen] at hm
      split at hm
      · rename_i e; subst e
        rcases mem_set hm with hm | hm
        · exact old hm
        · simp at hm
          rw [hm.2] at hs
          simp at hs
          obtain ⟨rfl, rfl⟩ := hs
          refine ⟨by omega, fun v hv => ?_⟩
          rw [if_pos rfl] at hv
          injection hv with hv
          rw [← hv]
      · exact old hm
    · intro h v hv
      rw [gs] at hv
      rw [gn]
      split at hv
      · omega
      · have := hi.fresh h v hv; omega
    · intro h p' c' si' hc' hb
      have h1 := hi.keep h p' c' si' hc' hb
      have := hi.fresh _ _ h1
      rw [gs, if_neg (by omega)]
      exact h1
  · exact hi

theorem KInv.loadOrCreate {s : St} {c : Nat} (si : Nat) (o : Opt) (hi : KInv K base s) :
    KInv K base (loadOrCreate s c si o).2 ∧
    (∀ h p, (Ports.loadOrCreate s c si o).1.sock = some (h, p) →
      ∀ v, AMap.get (Ports.loadOrCreate s c si o).2.socks h = some v → v.2.1 = c) := by
  unfold Ports.loadOrCreate
  split
  · rename_i l hl
    exact ⟨hi, fun h p hs => (hi.ent _ _ _ _ _ (AMap.mem_of_get _ hl) hs).2⟩
  · simp only
    refine ⟨hi.setLs ?_, by simp⟩
    intro si' l h p hm hs
    rcases mem_set hm with hm | hm
    · exact hi.ent _ _ _ _ _ hm hs
    · simp at hm; rw [hm.2] at hs; simp at hs

theorem KInv.loop {c : Nat} {env : Nat → Env} (hk : ¬ K c) (opts : List (Nat × Opt)) (s : St) (succ : List Nat)
    (ann : List (Nat × Nat)) (hi : KInv K base s) : KInv K base (loop P c env s opts succ ann).2 := by
  induction opts generalizing s succ ann with
  | nil => exact hi
  | cons o r ih =>
    obtain ⟨si, o⟩ := o
    obtain ⟨i1, hs1⟩ := hi.loadOrCreate (c := c) si o
    simp only [Ports.loop]
    cases hs : (Ports.loadOrCreate s c si o).1.sock with
    | none =>
      simp only
      have i2 := i1.openTCPPort (P := P) (c := c) (si := si) (l := (Ports.loadOrCreate s c si o).1) (env := env si)
      cases hop : Ports.openTCPPort P (Ports.loadOrCreate s c si o).2 c si (Ports.loadOrCreate s c si o).1 (env si) with
      | mk po s2 =>
        rw [hop] at i2
        cases po with
        | none => simp only; exact i2.deleteMany _ hk
        | some p => simp only; exact ih _ _ _ i2
    | some x =>
      obtain ⟨h, port⟩ := x
      simp only
      split
      · exact ih _ _ _ i1
      · have i2 := (i1.release (P := P) (h := h) (p := port) hk (hs1 h port hs)).openTCPPort (P := P) (c := c) (si := si)
          (l := (Ports.loadOrCreate s c si o).1) (env := env si)
        cases hop : Ports.openTCPPort P (Ports.release (Ports.loadOrCreate s c si o).2 (P c) h port) c si
            (Ports.loadOrCreate s c si o).1 (env si) with
        | mk po s2 =>
          rw [hop] at i2
          cases po with
          | none => simp only; exact i2.deleteMany _ hk
          | some p => simp only; exact ih _ _ _ i2

theorem KInv.closeEntries {s : St} {c : Nat} (hk : ¬ K c) (L : List (Nat × Lis)) (hi : KInv K base s)
    (hL : ∀ e ∈ L, e ∈ s.ls c) : KInv K base (closeEntries P c s L) := by
  induction L generalizing s with
  | nil => exact hi
  | cons e r ih =>
    obtain ⟨si, l⟩ := e
    simp only [Ports.closeEntries]
    split
    · exact ih hi (fun e h => hL e (by simp [h]))
    · rename_i h p hs
      exact ih (hi.release hk (hi.ent _ _ _ _ _ (hL (si, l) (by simp)) hs).2) (fun e h => hL e (by simp [h]))

/-- The client an event is about. -/
def Ev.who : Ev → Nat
  | .process c _ _ => c
  | .leave c => c

theorem KInv.step {s : St} (e : Ev) (hi : KInv K base s) (hk : ¬ K e.who) : KInv K base (step P s e).2 := by
  cases e with
  | process c opts env =>
    simp only [Ports.step]
    split
    · exact hi
    · simp only [processTCP]
      have := KInv.loop (P := P) (c := c) (env := env) hk opts s [] [] hi
      cases hr : Ports.loop P c env s opts [] [] with
      | mk r s' =>
        rw [hr] at this
        cases r with
        | failed => exact this
        | ok ann => exact this.deleteMany _ hk
  | leave c =>
    simp only [Ports.step]
    split
    · exact hi
    · have := KInv.closeEntries (P := P) (c := c) hk (s.ls c) hi (fun e he => he)
      exact ⟨this.ent, this.fresh, this.keep⟩

theorem KInv.run {s : St} (evs : List Ev) (hi : KInv K base s) (hk : ∀ e ∈ evs, ¬ K e.who) : KInv K base (run P s evs).2 := by
  induction evs generalizing s with
  | nil => exact hi
  | cons e r ih => exact ih (hi.step e (hk e (by simp))) (fun e he => hk e (by simp [he]))

/-- **C131.** A public port that is open for a service of client `c` stays open, through whatever other clients do - register, reload,
fail to open their ports, leave - until `c` itself registers again or leaves. -/
theorem others_keep_my_port (cfg : Nat → List Nat) (P : Nat → Nat) (evs evs' : List Ev) (c : Nat)
    (hother : ∀ e ∈ evs', e.who ≠ c) (h p si : Nat) (ho : AMap.get (run P (start cfg) evs).2.socks h = some (p, c, si)) :
    AMap.get (run P (run P (start cfg) evs).2 evs').2.socks h = some (p, c, si) := by
  have h0 : KInv (fun _ => False) (start cfg) (start cfg) :=
    ⟨by simp [start], by simp [start], fun _ _ _ _ h => h.elim⟩
  have h1 := KInv.run (P := P) evs h0 (fun _ _ h => h)
  have h2 : KInv (fun c' => c' = c) (run P (start cfg) evs).2 (run P (start cfg) evs).2 :=
    ⟨h1.ent, h1.fresh, fun _ _ _ _ _ h => h⟩
  exact (KInv.run (P := P) evs' h2 (fun e he => hother e he)).keep h p c si rfl ho

end Verif.Ports
