import Verif.Ports.Model
set_option linter.unusedSimpArgs false
set_option linter.unusedVariables false
/-! Invariant of the port accounting.  `ex c si` marks entries whose listener was just closed. -/

namespace Verif.Ports
open Verif

structure Inv (P : Nat → Nat) (cfg : Nat → List Nat) (ex : Nat → Nat → Prop) (s : St) : Prop where
  nodup : ∀ c, (AMap.keys (s.ls c)).Nodup
  lis : ∀ c si l h p, s.dead c = false → AMap.get (s.ls c) si = some l → l.sock = some (h, p) → ¬ ex c si →
    AMap.get s.socks h = some (p, c, si)
  sock : ∀ h p c si, AMap.get s.socks h = some (p, c, si) →
    s.dead c = false ∧ ¬ ex c si ∧ ∃ l, AMap.get (s.ls c) si = some l ∧ l.sock = some (h, p)
  fresh : ∀ h v, AMap.get s.socks h = some v → h < s.next
  part : ∀ q p, p ∈ cfg q ↔ (p ∈ s.pool q ∨ ∃ h c si, AMap.get s.socks h = some (p, c, si) ∧ P c = q)
  excl : ∀ h p c si, AMap.get s.socks h = some (p, c, si) → p ∉ s.pool (P c)
  uniq : ∀ h h' p c si c' si', AMap.get s.socks h = some (p, c, si) → AMap.get s.socks h' = some (p, c', si') →
    P c = P c' → h = h'

abbrev noEx : Nat → Nat → Prop := fun _ _ => False
abbrev plus (ex : Nat → Nat → Prop) (c si : Nat) : Nat → Nat → Prop := fun c' si' => ex c' si' ∨ (c' = c ∧ si' = si)

variable {P : Nat → Nat} {cfg : Nat → List Nat}

theorem start_inv : Inv P cfg noEx (start cfg) := by
  constructor <;> simp [start, AMap.keys]

theorem mem_giveBack (s : St) (q port q' p : Nat) :
    p ∈ (giveBack s q port).pool q' ↔ (p ∈ s.pool q' ∨ (q' = q ∧ p = port)) := by
  simp only [giveBack, setPool]
  by_cases h : q' = q
  · subst h
    by_cases h2 : port ∈ s.pool q' <;> simp [h2]
    · rintro rfl; exact h2
    · constructor
      · rintro (h | h) <;> simp [h]
      · rintro (h | h) <;> simp [h]
  · simp [h]

theorem Inv.release {ex s c si h p} (hi : Inv P cfg ex s) (hs : AMap.get s.socks h = some (p, c, si)) :
    Inv P cfg (plus ex c si) (release s (P c) h p) := by
  have gs : ∀ h', AMap.get (Ports.release s (P c) h p).socks h' = if h' = h then none else AMap.get s.socks h' := by
    intro h'
    show AMap.get (AMap.del s.socks h) h' = _
    rw [AMap.get_del]
    by_cases e : h' = h
    · simp [e]
    · simp [e, show ¬ h = h' from fun x => e x.symm]
  have gp : ∀ q' p', p' ∈ (Ports.release s (P c) h p).pool q' ↔ (p' ∈ s.pool q' ∨ (q' = P c ∧ p' = p)) := by
    intro q' p'
    show p' ∈ (giveBack s (P c) p).pool q' ↔ _
    exact mem_giveBack ..
  have uh : ∀ h' p', AMap.get s.socks h' = some (p', c, si) → h' = h := by
    intro h' p' hh
    obtain ⟨_, _, l, a, b⟩ := hi.sock _ _ _ _ hh
    obtain ⟨_, _, l', a', b'⟩ := hi.sock _ _ _ _ hs
    rw [a] at a'; injection a' with a'; subst a'
    rw [b] at b'; injection b' with b'; simp at b'; exact b'.1
  constructor
  · exact hi.nodup
  · intro c' si' l h' p' hd hl hsk hne
    simp only [plus, not_or] at hne
    have := hi.lis c' si' l h' p' hd hl hsk hne.1
    rw [gs]
    split
    · rename_i e; subst e
      rw [this] at hs; injection hs with hs
      simp at hs
      exact absurd ⟨hs.2.1, hs.2.2⟩ hne.2
    · exact this
  · intro h' p' c' si' hh
    rw [gs] at hh
    split at hh
    · simp at hh
    · rename_i e
      obtain ⟨a, b, d⟩ := hi.sock _ _ _ _ hh
      refine ⟨a, ?_, d⟩
      simp only [plus, not_or]
      refine ⟨b, ?_⟩
      rintro ⟨rfl, rfl⟩
      exact e (uh _ _ hh)
  · intro h' v hh
    rw [gs] at hh
    split at hh
    · simp at hh
    · exact hi.fresh _ _ hh
  · intro q' p'
    rw [hi.part, gp]
    constructor
    · rintro (h1 | ⟨h', c', si', h1, h2⟩)
      · exact Or.inl (Or.inl h1)
      · by_cases e : h' = h
        · subst e
          rw [h1] at hs; injection hs with hs; simp at hs
          exact Or.inl (Or.inr ⟨by rw [← h2, hs.2.1], hs.1⟩)
        · exact Or.inr ⟨h', c', si', by rw [gs]; simp [e, h1], h2⟩
    · rintro ((h1 | ⟨h1, h2⟩) | ⟨h', c', si', h1, h2⟩)
      · exact Or.inl h1
      · exact Or.inr ⟨h, c, si, by rw [h2]; exact hs, h1.symm⟩
      · rw [gs] at h1
        split at h1
        · simp at h1
        · exact Or.inr ⟨h', c', si', h1, h2⟩
  · intro h' p' c' si' hh
    rw [gs] at hh
    split at hh
    · simp at hh
    · rename_i e
      rw [gp]
      rintro (h1 | ⟨h1, h2⟩)
      · exact hi.excl _ _ _ _ hh h1
      · subst h2
        exact e (hi.uniq _ _ _ _ _ _ _ hh hs h1)
  · intro h1 h2 p' c1 s1 c2 s2 a b hP
    rw [gs] at a b
    split at a
    · simp at a
    · split at b
      · simp at b
      · exact hi.uniq _ _ _ _ _ _ _ a b hP

/-- Dropping the excepted entry. -/
theorem Inv.drop {ex s c si} (hi : Inv P cfg (plus ex c si) s) :
    Inv P cfg ex (setLs s c (AMap.del (s.ls c) si)) := by
  have gl : ∀ c' si', AMap.get ((setLs s c (AMap.del (s.ls c) si)).ls c') si' =
      if c' = c ∧ si' = si then none else AMap.get (s.ls c') si' := by
    intro c' si'
    simp only [setLs]
    by_cases h : c' = c
    · subst h
      simp only [if_true, true_and]
      rw [AMap.get_del]
      by_cases e : si' = si
      · simp [e]
      · simp [e, show ¬ si = si' from fun x => e x.symm]
    · simp [h]
  constructor
  · intro c'
    simp only [setLs]
    by_cases h : c' = c
    · simp only [h, if_true]; exact AMap.nodup_del (hi.nodup c) _
    · simp only [h, if_false]; exact hi.nodup c'
  · intro c' si' l h p hd hl hs hne
    rw [gl] at hl
    split at hl
    · simp at hl
    · rename_i e
      exact hi.lis c' si' l h p hd hl hs (by simp only [plus, not_or]; exact ⟨hne, e⟩)
  · intro h p c' si' hh
    obtain ⟨a, b, l, d, e⟩ := hi.sock _ _ _ _ hh
    simp only [plus, not_or] at b
    exact ⟨a, b.1, l, by rw [gl]; simp only [b.2, if_false]; exact d, e⟩
  · exact hi.fresh
  · exact hi.part
  · exact hi.excl
  · exact hi.uniq

/-- An entry without a listener may be excepted. -/
theorem Inv.weaken {ex s c si} (hi : Inv P cfg ex s)
    (h : ∀ l, AMap.get (s.ls c) si = some l → l.sock = none) : Inv P cfg (plus ex c si) s := by
  constructor
  · exact hi.nodup
  · intro c' si' l h p hd hl hs hne
    simp only [plus, not_or] at hne
    exact hi.lis c' si' l h p hd hl hs hne.1
  · intro h' p c' si' hh
    obtain ⟨a, b, l, d, e⟩ := hi.sock _ _ _ _ hh
    refine ⟨a, ?_, l, d, e⟩
    simp only [plus, not_or]
    refine ⟨b, ?_⟩
    rintro ⟨rfl, rfl⟩
    rw [h l d] at e
    simp at e
  · exact hi.fresh
  · exact hi.part
  · exact hi.excl
  · exact hi.uniq

theorem Inv.deleteLis {ex s c} (si : Nat) (hi : Inv P cfg ex s) (hd : s.dead c = false) (hx : ¬ ex c si) :
    Inv P cfg ex (deleteLis P s c si) := by
  unfold Ports.deleteLis
  cases hl : AMap.get (s.ls c) si with
  | none => exact hi
  | some l =>
    simp only
    cases hs : l.sock with
    | none =>
      simp only
      exact (hi.weaken (by intro l' h'; rw [hl] at h'; injection h' with h'; subst h'; exact hs)).drop
    | some x =>
      obtain ⟨h, p⟩ := x
      simp only
      exact (hi.release (hi.lis c si l h p hd hl hs hx)).drop

theorem deleteLis_dead (s : St) (c si : Nat) : (Ports.deleteLis P s c si).dead = s.dead := by
  unfold Ports.deleteLis
  split
  · rfl
  · simp only; split <;> rfl

theorem deleteLis_ls (s : St) (c si c' : Nat) : (Ports.deleteLis P s c si).ls c' =
    if c' = c then AMap.del (s.ls c) si else s.ls c' := by
  unfold Ports.deleteLis
  split
  · rename_i h
    by_cases e : c' = c
    · subst e
      simp only [if_true]
      have hk := (AMap.get_eq_none_iff (s.ls c') si).1 h
      symm
      simp only [AMap.del]
      rw [List.filter_eq_self]
      intro a ha
      simp only [ne_eq, decide_eq_true_eq]
      rintro rfl
      exact hk (List.mem_map_of_mem ha)
    · simp [e]
  · simp only; split <;> rfl

theorem Inv.deleteMany {ex s c} (sis : List Nat) (hi : Inv P cfg ex s) (hd : s.dead c = false)
    (hx : ∀ si ∈ sis, ¬ ex c si) : Inv P cfg ex (deleteMany P s c sis) := by
  induction sis generalizing s with
  | nil => exact hi
  | cons si r ih =>
    simp only [Ports.deleteMany]
    exact ih (hi.deleteLis si hd (hx si (by simp))) (by rw [deleteLis_dead]; exact hd)
      (fun si' h => hx si' (by simp [h]))

theorem deleteMany_dead (s : St) (c : Nat) (sis : List Nat) : (Ports.deleteMany P s c sis).dead = s.dead := by
  induction sis generalizing s with
  | nil => rfl
  | cons si r ih => simp only [Ports.deleteMany]; rw [ih, deleteLis_dead]

/-- Opening a free port for the excepted entry. -/
theorem Inv.doOpen {ex s c si opt port} (hi : Inv P cfg (plus ex c si) s) (hx : ¬ ex c si)
    (hd : s.dead c = false) (hp : port ∈ s.pool (P c)) : Inv P cfg ex (doOpen P s c si opt port) := by
  have gs : ∀ h', AMap.get (Ports.doOpen P s c si opt port).socks h' =
      if h' = s.next then some (port, c, si) else AMap.get s.socks h' := by
    intro h'
    show AMap.get (AMap.set s.socks s.next (port, c, si)) h' = _
    rw [AMap.get_set]
    by_cases e : h' = s.next
    · simp [e]
    · simp [e, show ¬ s.next = h' from fun x => e x.symm]
  have gl : ∀ c' si', AMap.get ((Ports.doOpen P s c si opt port).ls c') si' =
      if c' = c ∧ si' = si then some { sock := some (s.next, port), opt := opt } else AMap.get (s.ls c') si' := by
    intro c' si'
    simp only [Ports.doOpen]
    by_cases h : c' = c
    · subst h
      simp only [if_true, true_and]
      rw [AMap.get_set]
      by_cases e : si' = si
      · simp [e]
      · simp [e, show ¬ si = si' from fun x => e x.symm]
    · simp [h]
  have gp : ∀ q' p', p' ∈ (Ports.doOpen P s c si opt port).pool q' ↔
      (p' ∈ s.pool q' ∧ ¬ (q' = P c ∧ p' = port)) := by
    intro q' p'
    simp only [Ports.doOpen]
    by_cases h : q' = P c
    · simp [h]
    · simp [h]
  constructor
  · intro c'
    simp only [Ports.doOpen]
    by_cases h : c' = c
    · simp only [h, if_true]; exact AMap.nodup_set (hi.nodup c) _ _
    · simp only [h, if_false]; exact hi.nodup c'
  · intro c' si' l h p hd' hl hs hne
    rw [gl] at hl
    rw [gs]
    split at hl
    · rename_i e
      obtain ⟨rfl, rfl⟩ := e
      injection hl with hl
      subst hl
      simp at hs
      simp [← hs.1, ← hs.2]
    · rename_i e
      have := hi.lis c' si' l h p hd' hl hs (by simp only [plus, not_or]; exact ⟨hne, e⟩)
      have := hi.fresh _ _ this
      have ne : ¬ h = s.next := by omega
      simp [ne]; assumption
  · intro h p c' si' hh
    rw [gs] at hh
    split at hh
    · rename_i e
      injection hh with hh
      simp at hh
      obtain ⟨rfl, rfl, rfl⟩ := hh
      exact ⟨hd, hx, { sock := some (s.next, port), opt := opt }, by rw [gl]; simp, by simp [e]⟩
    · obtain ⟨a, b, l, d, e⟩ := hi.sock _ _ _ _ hh
      simp only [plus, not_or] at b
      exact ⟨a, b.1, l, by rw [gl]; simp only [b.2, if_false]; exact d, e⟩
  · intro h v hh
    rw [gs] at hh
    show h < s.next + 1
    split at hh
    · omega
    · have := hi.fresh _ _ hh; omega
  · intro q p
    rw [hi.part, gp]
    constructor
    · rintro (h1 | ⟨h', c', si', h1, h2⟩)
      · by_cases e : q = P c ∧ p = port
        · refine Or.inr ⟨s.next, c, si, ?_, e.1.symm⟩
          rw [gs]; simp [e.2]
        · exact Or.inl ⟨h1, e⟩
      · refine Or.inr ⟨h', c', si', ?_, h2⟩
        rw [gs]
        have := hi.fresh _ _ h1
        have ne : ¬ h' = s.next := by omega
        simp [ne, h1]
    · rintro (h1 | ⟨h', c', si', h1, h2⟩)
      · exact Or.inl h1.1
      · rw [gs] at h1
        split at h1
        · injection h1 with h1
          simp at h1
          obtain ⟨rfl, rfl, rfl⟩ := h1
          exact Or.inl (by rw [← h2]; exact hp)
        · exact Or.inr ⟨h', c', si', h1, h2⟩
  · intro h p c' si' hh
    rw [gs] at hh
    rw [gp]
    split at hh
    · injection hh with hh
      simp at hh
      obtain ⟨rfl, rfl, rfl⟩ := hh
      simp
    · intro h1
      exact hi.excl _ _ _ _ hh h1.1
  · intro h1 h2 p c1 s1 c2 s2 a b hP
    rw [gs] at a b
    split at a
    · split at b
      · omega
      · injection a with a
        simp at a
        obtain ⟨rfl, rfl, rfl⟩ := a
        have := hi.excl _ _ _ _ b
        rw [← hP] at this
        exact absurd hp this
    · split at b
      · injection b with b
        simp at b
        obtain ⟨rfl, rfl, rfl⟩ := b
        have := hi.excl _ _ _ _ a
        rw [hP] at this
        exact absurd hp this
      · exact hi.uniq _ _ _ _ _ _ _ a b hP

theorem firstBind_mem {bind : Nat → Bool} {k ps p} (h : firstBind bind k ps = some p) : p ∈ ps := by
  induction ps generalizing k with
  | nil => simp [firstBind] at h
  | cons a r ih =>
    simp only [firstBind] at h
    split at h
    · simp at h
    · split at h
      · simp at h; simp [h]
      · simp [ih h]

theorem choosePort_mem {free opt env p} (h : choosePort free opt env = some p) : p ∈ free := by
  unfold choosePort at h
  split at h
  · simp at h
  · split at h
    · rename_i hb
      simp at h hb
      rw [← h]; exact hb.1
    · split at h
      · simp at h
      · have := firstBind_mem h
        simp at this
        exact this.2

theorem choosePort_fixed {free opt env p} (h : choosePort free opt env = some p) (hr : opt.random = false) :
    p = opt.port := by
  unfold choosePort at h
  simp only [hr] at h
  split at h
  · simp at h
  · split at h
    · simp at h; exact h.symm
    · simp at h

theorem openTCPPort_some {s c si l env p s'} (h : openTCPPort P s c si l env = (some p, s')) :
    p ∈ s.pool (P c) ∧ s' = doOpen P s c si l.opt p ∧ (l.opt.random = false → p = l.opt.port) := by
  unfold openTCPPort at h
  split at h
  · rename_i p' hc
    simp at h
    obtain ⟨rfl, rfl⟩ := h
    exact ⟨choosePort_mem hc, rfl, choosePort_fixed hc⟩
  · simp at h

theorem openTCPPort_none {s c si l env s'} (h : openTCPPort P s c si l env = (none, s')) : s' = s := by
  unfold openTCPPort at h
  split at h
  · simp at h
  · simp at h; exact h.symm

theorem Inv.loadOrCreate {s c} (si : Nat) (o : Opt) (hi : Inv P cfg noEx s) :
    Inv P cfg noEx (loadOrCreate s c si o).2 ∧ (Ports.loadOrCreate s c si o).2.dead = s.dead ∧
    (Ports.loadOrCreate s c si o).2.socks = s.socks ∧ (Ports.loadOrCreate s c si o).2.pool = s.pool ∧
    AMap.get ((Ports.loadOrCreate s c si o).2.ls c) si = some (Ports.loadOrCreate s c si o).1 ∧
    (∀ c' si', (c', si') ≠ (c, si) → AMap.get ((Ports.loadOrCreate s c si o).2.ls c') si' = AMap.get (s.ls c') si') := by
  unfold Ports.loadOrCreate
  cases hl : AMap.get (s.ls c) si with
  | some l => exact ⟨hi, rfl, rfl, rfl, hl, fun _ _ _ => rfl⟩
  | none =>
    simp only
    have gl : ∀ c' si', AMap.get ((setLs s c (AMap.set (s.ls c) si { sock := none, opt := o })).ls c') si' =
        if c' = c ∧ si' = si then some { sock := none, opt := o } else AMap.get (s.ls c') si' := by
      intro c' si'
      simp only [setLs]
      by_cases h : c' = c
      · subst h
        simp only [if_true, true_and]
        rw [AMap.get_set]
        by_cases e : si' = si
        · simp [e]
        · simp [e, show ¬ si = si' from fun x => e x.symm]
      · simp [h]
    refine ⟨?_, rfl, rfl, rfl, by rw [gl]; simp, ?_⟩
    · constructor
      · intro c'
        simp only [setLs]
        by_cases h : c' = c
        · simp only [h, if_true]; exact AMap.nodup_set (hi.nodup c) _ _
        · simp only [h, if_false]; exact hi.nodup c'
      · intro c' si' l h p hd hl' hs hne
        rw [gl] at hl'
        split at hl'
        · injection hl' with hl'; subst hl'; simp at hs
        · exact hi.lis _ _ _ _ _ hd hl' hs hne
      · intro h p c' si' hh
        obtain ⟨a, b, l, d, e⟩ := hi.sock _ _ _ _ hh
        refine ⟨a, b, l, ?_, e⟩
        rw [gl]
        split
        · rename_i e'; obtain ⟨rfl, rfl⟩ := e'; rw [hl] at d; simp at d
        · exact d
      · exact hi.fresh
      · exact hi.part
      · exact hi.excl
      · exact hi.uniq
    · intro c' si' hne
      rw [gl]
      split
      · rename_i e; exact absurd (by simp [e.1, e.2]) hne
      · rfl

theorem Inv.closeEntries {ex s c} (L : List (Nat × Lis)) (hi : Inv P cfg ex s) (hd : s.dead c = false)
    (hn : (AMap.keys L).Nodup) (hL : ∀ e ∈ L, AMap.get (s.ls c) e.1 = some e.2 ∧ ¬ ex c e.1) :
    Inv P cfg (fun c' si' => ex c' si' ∨ (c' = c ∧ si' ∈ AMap.keys L)) (closeEntries P c s L) ∧
    (Ports.closeEntries P c s L).ls = s.ls ∧ (Ports.closeEntries P c s L).dead = s.dead := by
  induction L generalizing ex s with
  | nil =>
    refine ⟨?_, rfl, rfl⟩
    have : (fun c' si' => ex c' si' ∨ (c' = c ∧ si' ∈ AMap.keys ([] : AMap Nat Lis))) = ex := by
      funext a b; simp [AMap.keys]
    rw [this]; exact hi
  | cons e r ih =>
    obtain ⟨si, l⟩ := e
    have hh := hL (si, l) (by simp)
    have hn' : si ∉ AMap.keys r ∧ (AMap.keys r).Nodup := by simpa [AMap.keys] using hn
    have key : (fun c' si' => (plus ex c si) c' si' ∨ (c' = c ∧ si' ∈ AMap.keys r)) =
        (fun c' si' => ex c' si' ∨ (c' = c ∧ si' ∈ AMap.keys ((si, l) :: r))) := by
      funext a b
      simp only [plus, AMap.keys, List.map_cons, List.mem_cons, eq_iff_iff]
      constructor
      · rintro ((h | ⟨h, h'⟩) | ⟨h, h'⟩) <;> simp_all
      · rintro (h | ⟨h, h' | h'⟩) <;> simp_all
    have hr : ∀ e ∈ r, AMap.get (s.ls c) e.1 = some e.2 ∧ ¬ plus ex c si c e.1 := by
      intro e he
      have := hL e (by simp [he])
      refine ⟨this.1, ?_⟩
      simp only [plus, not_or]
      refine ⟨this.2, ?_⟩
      rintro ⟨_, h⟩
      exact hn'.1 (h ▸ List.mem_map_of_mem he)
    simp only [Ports.closeEntries]
    cases hs : l.sock with
    | none =>
      simp only
      have hw : Inv P cfg (plus ex c si) s :=
        hi.weaken (by intro l' h'; rw [hh.1] at h'; injection h' with h'; subst h'; exact hs)
      obtain ⟨a, b, d⟩ := ih hw hd hn'.2 hr
      exact ⟨key ▸ a, b, d⟩
    | some x =>
      obtain ⟨h, p⟩ := x
      simp only
      have hw := hi.release (hi.lis c si l h p hd hh.1 hs hh.2)
      obtain ⟨a, b, d⟩ := ih hw hd hn'.2 hr
      exact ⟨key ▸ a, b, d⟩

theorem Inv.lastTunnelLeft {s c} (hi : Inv P cfg noEx s) (hd : s.dead c = false) :
    Inv P cfg noEx (lastTunnelLeft P s c) := by
  obtain ⟨a, b, d⟩ := hi.closeEntries (c := c) (s.ls c) hd (hi.nodup c)
    (fun e he => ⟨AMap.get_of_mem (hi.nodup c) he, fun h => h⟩)
  unfold Ports.lastTunnelLeft
  constructor
  · intro c'; exact a.nodup c'
  · intro c' si' l h p hd' hl hs hne
    have hc : ¬ c' = c := by
      rintro rfl
      simp at hd'
    simp only [hc, if_false] at hd'
    exact a.lis c' si' l h p hd' hl hs (by simp [hc])
  · intro h p c' si' hh
    obtain ⟨x, y, l, z, w⟩ := a.sock _ _ _ _ hh
    simp only [false_or, not_and] at y
    have hc : ¬ c' = c := by
      rintro rfl
      rw [b] at z
      have : si' ∈ AMap.keys (s.ls c') := List.mem_map_of_mem (AMap.mem_of_get _ z)
      exact y rfl this
    exact ⟨by simp only [hc, if_false]; exact x, fun h => h, l, z, w⟩
  · exact a.fresh
  · exact a.part
  · exact a.excl
  · exact a.uniq

end Verif.Ports
