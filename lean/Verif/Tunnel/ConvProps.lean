import Verif.Tunnel.ConvLemmas
set_option linter.unusedSimpArgs false
set_option linter.unusedVariables false
set_option linter.unusedSectionVars false
/-! C128: a conversation arrives whole and is taken down everywhere. C129: closing one direction. C130: an unreachable service. -/
namespace Verif.Tunnel.Conversation

/-! ## Order and integrity -/

/-- C128. Whatever happens - any interleaving, any timeouts, either side closing in any way at any time - what one side has received is a
beginning of what the other has sent: nothing lost in between, nothing twice, nothing out of order, nothing invented. -/
theorem each_side_gets_a_beginning {es : List Ev} {s : St} (h : Reached es s) :
    s.vGot <+: s.sSent ∧ s.sGot <+: s.vSent :=
  ⟨(flows_run h).2.2.pre, (flows_run h).2.1.pre⟩

/-! ## What waits when gt has nothing to do -/

structure Rest (s : St) : Prop where
  sp : (s.sp = .reading ∧ s.flag = .no ∧ s.vIn = [] ∧ s.vFin = false) ∨ s.sp = .done
  hold : s.hold = none
  dn : s.dn = []
  cHold : s.cHold = none
  up : s.up = []
  cp : s.cp = .start ∨ (s.cp = .reading ∧ s.cFlag = .no ∧ s.sIn = [] ∧ s.sFin = false) ∨ s.cp = .done

theorem hold_none {s : St} (h : Quiet s) : s.hold = none := by
  cases hh : s.hold with
  | none => rfl
  | some f =>
    have := h .srvDo rfl
    cases f <;> simp [step, hh] at this

theorem cHold_none {s : St} (h : Quiet s) : s.cHold = none := by
  cases hh : s.cHold with
  | none => rfl
  | some f =>
    have := h .cliDo rfl
    cases f <;> simp [step, hh] at this

theorem rest_of_quiet {s : St} (hn : s.sp ≠ .unlisting) (h : Quiet s) : Rest s := by
  have h1 := hold_none h
  have h2 := cHold_none h
  refine ⟨?_, h1, ?_, h2, ?_, ?_⟩
  · cases hp : s.sp with
    | start => have := h (.srvOpen 0) rfl; simp [step, hp] at this
    | reading =>
      left
      have h3 := h .srvEnd rfl
      simp only [step, hp, beq_self_eq_true, Bool.true_and, ite_eq_right_iff, reduceCtorEq, imp_false, Bool.not_eq_true] at h3
      have h4 : ¬ atEnd s.vIn s.vFin s.flag = true := by simp [h3]
      rw [atEnd_iff] at h4
      have hf : s.flag = .no := Decidable.byContradiction (fun hx => h4 (.inr hx))
      have hv : s.vIn = [] := by
        cases hv : s.vIn with
        | nil => rfl
        | cons a r => have := h (.srvRead 1) rfl; simp [step, hp, hf, hv] at this
      refine ⟨rfl, hf, hv, ?_⟩
      cases hx : s.vFin
      · rfl
      · exact absurd (.inl ⟨hv, hx⟩) h4
    | ending => have := h .srvTell rfl; simp [step, hp] at this
    | unlisting => exact absurd hp hn
    | closing => have := h .srvClose rfl; simp [step, hp] at this
    | done => exact .inr rfl
  · cases hd : s.dn with
    | nil => rfl
    | cons f r => have := h .srvTake rfl; simp [step, hd, h1] at this
  · cases hd : s.up with
    | nil => rfl
    | cons f r =>
      have := h (.cliTake true) rfl
      cases f <;> simp [step, hd, h2] at this
  · cases hp : s.cp with
    | start => exact .inl rfl
    | reading =>
      right; left
      have h3 := h .cliEnd rfl
      simp only [step, hp, beq_self_eq_true, Bool.true_and, ite_eq_right_iff, reduceCtorEq, imp_false, Bool.not_eq_true] at h3
      have h4 : ¬ atEnd s.sIn s.sFin s.cFlag = true := by simp [h3]
      rw [atEnd_iff] at h4
      have hf : s.cFlag = .no := Decidable.byContradiction (fun hx => h4 (.inr hx))
      have hv : s.sIn = [] := by
        cases hv : s.sIn with
        | nil => rfl
        | cons a r => have := h (.cliRead 1) rfl; simp [step, hp, hf, hv] at this
      refine ⟨rfl, hf, hv, ?_⟩
      cases hx : s.sFin
      · rfl
      · exact absurd (.inl ⟨hv, hx⟩) h4
    | ending => have := h .cliTell rfl; simp [step, hp] at this
    | unlisting => have := h .cliUnlist rfl; simp [step, hp] at this
    | closing => have := h .cliClose rfl; simp [step, hp] at this
    | done => exact .inr (.inr rfl)

/-! ## Both sides learn of the end -/

structure Told (s : St) : Prop where
  nu : s.sp ≠ .unlisting
  sDone : s.sp = .done → s.flag ≠ .no
  cDone : s.cp = .done → s.cFlag ≠ .no
  srv : (s.sp = .closing ∨ s.sp = .done) →
    .close ∈ s.up ∨ s.cHold = some .close ∨ s.cFlag ≠ .no ∨ (s.dialled = true ∧ s.cp ≠ .reading ∧ s.cp ≠ .ending)
  cli : (s.cp = .unlisting ∨ s.cp = .closing ∨ s.cp = .done) →
    .close ∈ s.dn ∨ s.hold = some .close ∨ s.flag ≠ .no ∨ (s.sp ≠ .start ∧ s.sp ≠ .reading)
  byCli : (.close ∈ s.dn ∨ s.hold = some .close ∨ s.flag = .remote) → s.cp = .unlisting ∨ s.cp = .closing ∨ s.cp = .done
  bySrv : (.close ∈ s.up ∨ s.cHold = some .close ∨ s.cFlag = .remote) → s.sp = .closing ∨ s.sp = .done

theorem told_init : Told {} := by constructor <;> simp

theorem Flag.set_here_remote {f : Flag} : f.set .here = .remote ↔ f = .remote := by cases f <;> simp [Flag.set]

theorem told_step {s s' : St} {e : Ev} (w : Shape s) (h : Told s) (hs : step s e = some s') : Told s' := by
  cases step_cases hs with
  | srvTimeout hr =>
    refine ⟨by simp, by simp, h.cDone, by simp, fun hc => ?_, h.byCli, fun hx => ?_⟩
    · rcases h.cli hc with a | a | a | a
      · exact .inl a
      · exact .inr (.inl a)
      · exact .inr (.inr (.inl a))
      · exact .inr (.inr (.inr (by simp)))
    · have := h.bySrv hx; rw [hr] at this; simp at this
  | cliTimeout hr =>
    refine ⟨h.nu, h.sDone, by simp, fun hc => ?_, by simp, fun hx => ?_, h.bySrv⟩
    · rcases h.srv hc with a | a | a | a
      · exact .inl a
      · exact .inr (.inl a)
      · exact .inr (.inr (.inl a))
      · exact absurd hr a.2.1
    · have := h.byCli hx; rw [hr] at this; simp at this
  | srvOpen n hr hn hm =>
    refine ⟨by simp, by simp, h.cDone, by simp, fun hc => ?_, h.byCli, fun hx => ?_⟩
    · have := w.cold (w.start hr).2.1; rw [this] at hc; simp at hc
    · have h1 := h.bySrv (by
        rcases hx with a | a | a
        · simp at a; exact .inl a
        · exact .inr (.inl a)
        · exact .inr (.inr a))
      rw [hr] at h1; simp at h1
  | srvRead n hr hf h0 hn hm =>
    refine ⟨h.nu, h.sDone, h.cDone, fun hc => by simp [hr] at hc, h.cli, h.byCli, fun hx => ?_⟩
    have h1 := h.bySrv (by
        rcases hx with a | a | a
        · simp at a; exact .inl a
        · exact .inr (.inl a)
        · exact .inr (.inr a))
    rw [hr] at h1; simp at h1
  | srvEnd hr he =>
    refine ⟨by simp, by simp, h.cDone, by simp, fun hc => ?_, h.byCli, fun hx => ?_⟩
    · exact .inr (.inr (.inr (by simp)))
    · have := h.bySrv hx; rw [hr] at this; simp at this
  | srvTell hr hf =>
    refine ⟨by simp, by simp, h.cDone, fun _ => .inl (by simp), fun hc => .inr (.inr (.inr (by simp))), h.byCli, fun _ => .inl rfl⟩
  | srvSilent hr hf =>
    refine ⟨by simp, by simp, h.cDone, fun _ => .inr (.inr (.inr ?_)), fun hc => .inr (.inr (.inr (by simp))), h.byCli, fun _ => .inl rfl⟩
    have h1 := h.byCli (.inr (.inr hf))
    refine ⟨w.dialled_of_cp (fun hx => by rw [hx] at h1; simp at h1), fun hx => by rw [hx] at h1; simp at h1, fun hx => by rw [hx] at h1; simp at h1⟩
  | srvClose hr =>
    refine ⟨by simp, fun _ => Flag.set_ne (by simp), h.cDone, fun _ => h.srv (.inl hr), fun hc => .inr (.inr (.inr (by simp))),
      fun hx => h.byCli ?_, fun _ => .inr rfl⟩
    rcases hx with a | a | a
    · exact .inl a
    · exact .inr (.inl a)
    · exact .inr (.inr (Flag.set_here_remote.mp a))
  | srvTake f r hh hd hl =>
    refine ⟨h.nu, h.sDone, h.cDone, h.srv, fun hc => ?_, fun hx => h.byCli ?_, h.bySrv⟩
    · rcases h.cli hc with a | a | a
      · rw [hd] at a
        rcases List.mem_cons.mp a with a | a
        · exact .inr (.inl (by rw [a]))
        · exact .inl a
      · rw [hh] at a; cases a
      · exact .inr (.inr a)
    · rcases hx with a | a | a
      · exact .inl (hd ▸ List.mem_cons_of_mem _ a)
      · injection a with a; exact .inl (by rw [hd, a]; exact List.mem_cons_self ..)
      · exact .inr (.inr a)
  | srvDrop f r hh hd hl =>
    refine ⟨h.nu, h.sDone, h.cDone, h.srv, fun hc => .inr (.inr (.inr ⟨fun hx => ?_, fun hx => ?_⟩)), fun hx => h.byCli ?_, h.bySrv⟩
    · exact absurd (w.cold (w.start hx).2.1) (w.not_start_dn hd)
    · rw [w.listed.mpr hx] at hl; cases hl
    · rcases hx with a | a | a
      · exact .inl (hd ▸ List.mem_cons_of_mem _ a)
      · exact .inr (.inl a)
      · exact .inr (.inr a)
  | srvShut hh =>
    refine ⟨h.nu, fun _ => Flag.set_ne (by simp), h.cDone, h.srv, fun _ => .inr (.inr (.inl (Flag.set_ne (by simp)))), fun hx => h.byCli (.inr (.inl hh)), h.bySrv⟩
  | srvWrite f hh hc ho hg =>
    refine ⟨h.nu, h.sDone, h.cDone, h.srv, fun hx => ?_, fun hx => h.byCli ?_, h.bySrv⟩
    · rcases h.cli hx with a | a | a
      · exact .inl a
      · rw [hh] at a; injection a with a; exact absurd a hc
      · exact .inr (.inr a)
    · rcases hx with a | a | a
      · exact .inl a
      · cases a
      · exact .inr (.inr a)
  | srvLose f hh hc ho =>
    refine ⟨h.nu, h.sDone, h.cDone, h.srv, fun hx => ?_, fun hx => h.byCli ?_, h.bySrv⟩
    · rcases h.cli hx with a | a | a
      · exact .inl a
      · rw [hh] at a; injection a with a; exact absurd a hc
      · exact .inr (.inr a)
    · rcases hx with a | a | a
      · exact .inl a
      · cases a
      · exact .inr (.inr a)
  | cliRead n hr hf h0 hn hm =>
    refine ⟨h.nu, h.sDone, h.cDone, h.srv, fun hc => by simp [hr] at hc, fun hx => ?_, h.bySrv⟩
    have h1 := h.byCli (by
        rcases hx with a | a | a
        · simp at a; exact .inl a
        · exact .inr (.inl a)
        · exact .inr (.inr a))
    rw [hr] at h1; simp at h1
  | cliEnd hr he =>
    refine ⟨h.nu, h.sDone, by simp, fun hc => ?_, by simp, fun hx => ?_, h.bySrv⟩
    · rcases h.srv hc with a | a | a | a
      · exact .inl a
      · exact .inr (.inl a)
      · exact .inr (.inr (.inl a))
      · exact absurd hr a.2.1
    · have := h.byCli hx; rw [hr] at this; simp at this
  | cliTell hr hf =>
    refine ⟨h.nu, h.sDone, by simp, fun hc => ?_, fun _ => .inl (by simp), fun _ => .inl rfl, h.bySrv⟩
    rcases h.srv hc with a | a | a | a
    · exact .inl a
    · exact .inr (.inl a)
    · exact .inr (.inr (.inl a))
    · exact absurd hr a.2.2
  | cliSilent hr hf =>
    refine ⟨h.nu, h.sDone, by simp, fun _ => .inr (.inr (.inl (by simp [hf]))), fun _ => .inr (.inr (.inr ?_)), fun _ => .inl rfl, h.bySrv⟩
    have h1 := h.bySrv (.inr (.inr hf))
    exact ⟨fun hx => by rw [hx] at h1; simp at h1, fun hx => by rw [hx] at h1; simp at h1⟩
  | cliUnlist hr =>
    refine ⟨h.nu, h.sDone, by simp, fun hc => ?_, fun _ => h.cli (.inl hr), fun _ => .inr (.inl rfl), h.bySrv⟩
    rcases h.srv hc with a | a | a | a
    · exact .inl a
    · exact .inr (.inl a)
    · exact .inr (.inr (.inl a))
    · exact .inr (.inr (.inr ⟨a.1, by simp, by simp⟩))
  | cliClose hr =>
    refine ⟨h.nu, h.sDone, fun _ => Flag.set_ne (by simp), fun _ => .inr (.inr (.inl (Flag.set_ne (by simp)))), fun _ => h.cli (.inr (.inl hr)),
      fun _ => .inr (.inr rfl), fun hx => h.bySrv ?_⟩
    rcases hx with a | a | a
    · exact .inl a
    · exact .inr (.inl a)
    · exact .inr (.inr (Flag.set_here_remote.mp a))
  | cliDial p r hh hd =>
    have hcp := w.cold (w.head_open hd).1
    refine ⟨h.nu, h.sDone, by simp, fun hc => ?_, by simp, fun hx => ?_, fun hx => h.bySrv ?_⟩
    · rcases h.srv hc with a | a | a | a
      · rw [hd] at a; simp at a; exact .inl a
      · rw [hh] at a; cases a
      · exact .inr (.inr (.inl a))
      · rw [(w.head_open hd).1] at a; exact nomatch a.1
    · have := h.byCli hx; rw [hcp] at this; simp at this
    · rcases hx with a | a | a
      · exact .inl (hd ▸ List.mem_cons_of_mem _ a)
      · cases a
      · exact .inr (.inr a)
  | cliRefuse p r hh hd =>
    have hcp := w.cold (w.head_open hd).1
    refine ⟨h.nu, h.sDone, h.cDone, fun hc => .inr (.inr (.inr ⟨rfl, by simp [hcp], by simp [hcp]⟩)), h.cli, h.byCli, fun hx => h.bySrv ?_⟩
    rcases hx with a | a | a
    · exact .inl (hd ▸ List.mem_cons_of_mem _ a)
    · exact .inr (.inl a)
    · exact .inr (.inr a)
  | cliTake ok f r hh hd ho hl =>
    refine ⟨h.nu, h.sDone, h.cDone, fun hc => ?_, h.cli, h.byCli, fun hx => h.bySrv ?_⟩
    · rcases h.srv hc with a | a | a
      · rw [hd] at a
        rcases List.mem_cons.mp a with a | a
        · exact .inr (.inl (by rw [a]))
        · exact .inl a
      · rw [hh] at a; cases a
      · exact .inr (.inr a)
    · rcases hx with a | a | a
      · exact .inl (hd ▸ List.mem_cons_of_mem _ a)
      · injection a with a; exact .inl (by rw [hd, a]; exact List.mem_cons_self ..)
      · exact .inr (.inr a)
  | cliDrop ok f r hh hd ho hl =>
    refine ⟨h.nu, h.sDone, h.cDone, fun hc => .inr (.inr (.inr ⟨w.head_other hd ho, fun hx => ?_, fun hx => ?_⟩)), h.cli, h.byCli, fun hx => h.bySrv ?_⟩
    · rw [w.clisted.mpr (.inl hx)] at hl; cases hl
    · rw [w.clisted.mpr (.inr (.inl hx))] at hl; cases hl
    · rcases hx with a | a | a
      · exact .inl (hd ▸ List.mem_cons_of_mem _ a)
      · exact .inr (.inl a)
      · exact .inr (.inr a)
  | cliShut hh =>
    refine ⟨h.nu, h.sDone, fun _ => Flag.set_ne (by simp), fun _ => .inr (.inr (.inl (Flag.set_ne (by simp)))), h.cli, h.byCli, fun hx => h.bySrv (.inr (.inl hh))⟩
  | cliWrite f hh hc ho hg =>
    refine ⟨h.nu, h.sDone, h.cDone, fun hx => ?_, h.cli, h.byCli, fun hx => h.bySrv ?_⟩
    · rcases h.srv hx with a | a | a
      · exact .inl a
      · rw [hh] at a; injection a with a; exact absurd a hc
      · exact .inr (.inr a)
    · rcases hx with a | a | a
      · exact .inl a
      · cases a
      · exact .inr (.inr a)
  | cliLose f hh hc ho =>
    refine ⟨h.nu, h.sDone, h.cDone, fun hx => ?_, h.cli, h.byCli, fun hx => h.bySrv ?_⟩
    · rcases h.srv hx with a | a | a
      · exact .inl a
      · rw [hh] at a; injection a with a; exact absurd a hc
      · exact .inr (.inr a)
    · rcases hx with a | a | a
      · exact .inl a
      · cases a
      · exact .inr (.inr a)
  | _ => exact ⟨h.nu, h.sDone, h.cDone, h.srv, h.cli, h.byCli, h.bySrv⟩

theorem told_run {es : List Ev} {s : St} (h : Reached es s) : Shape s ∧ Told s :=
  run_inv (fun s => Shape s ∧ Told s) (fun _ _ _ a b => ⟨shape_step a.1 b, told_step a.1 a.2 b⟩) es _ _ ⟨shape_init, told_init⟩ h

/-- The server has taken down its part: the task is forgotten, `process` has returned, the visitor's connection is closed. -/
def SrvDown (s : St) : Prop := s.sp = .done ∧ s.listed = false ∧ s.flag ≠ .no

/-- The client has: the task is forgotten, `process` has returned, the connection to the service is closed. -/
def CliDown (s : St) : Prop := s.cp = .done ∧ s.cListed = false ∧ s.cFlag ≠ .no

/-- The client never reached the service. -/
def Refused (s : St) : Prop := s.dialled = true ∧ s.cp = .start

/-- C128. When gt has nothing left to do, a conversation is in one of four conditions: both sides wait for more, with nothing pending anywhere; or it
is taken down on both sides; or the service was not reached, and the server has taken it down or waits for the visitor. -/
theorem conditions_at_rest {es : List Ev} {s : St} (h : Reached es s) (hq : Quiet s) :
    s.up = [] ∧ s.dn = [] ∧
    ((s.sp = .reading ∧ s.flag = .no ∧ s.vIn = [] ∧ s.vFin = false ∧ s.cp = .reading ∧ s.cFlag = .no ∧ s.sIn = [] ∧ s.sFin = false) ∨
     (SrvDown s ∧ CliDown s) ∨
     (SrvDown s ∧ Refused s) ∨
     (s.sp = .reading ∧ s.flag = .no ∧ s.vIn = [] ∧ s.vFin = false ∧ Refused s)) := by
  obtain ⟨w, t⟩ := told_run h
  obtain ⟨r1, r2, r3, r4, r5, r6⟩ := rest_of_quiet t.nu hq
  refine ⟨r5, r3, ?_⟩
  have hd : s.dialled = true := by
    cases hx : s.dialled
    · obtain ⟨p, r, h1, _⟩ := w.opening hx (by
        rcases r1 with a | a
        · simp [a.1]
        · simp [a])
      rw [r5] at h1; cases h1
    · rfl
  have sdown : s.sp = .done → SrvDown s := fun a => by
    refine ⟨a, ?_, t.sDone a⟩
    cases hx : s.listed
    · rfl
    · have := w.listed.mp hx; rw [a] at this; cases this
  have cdown : s.cp = .done → CliDown s := fun a => by
    refine ⟨a, ?_, t.cDone a⟩
    cases hx : s.cListed
    · rfl
    · have := w.clisted.mp hx; rw [a] at this; simp at this
  rcases r1 with a | a
  · rcases r6 with b | b | b
    · exact .inr (.inr (.inr ⟨a.1, a.2.1, a.2.2.1, a.2.2.2, hd, b⟩))
    · exact .inl ⟨a.1, a.2.1, a.2.2.1, a.2.2.2, b.1, b.2.1, b.2.2.1, b.2.2.2⟩
    · rcases t.cli (.inr (.inr b)) with c | c | c | c
      · rw [r3] at c; cases c
      · rw [r2] at c; cases c
      · exact absurd a.2.1 c
      · exact absurd a.1 c.2
  · rcases r6 with b | b | b
    · exact .inr (.inr (.inl ⟨sdown a, hd, b⟩))
    · rcases t.srv (.inr a) with c | c | c | c
      · rw [r5] at c; cases c
      · rw [r4] at c; cases c
      · exact absurd b.2.1 c
      · exact absurd b.1 c.2.1
    · exact .inr (.inl ⟨sdown a, cdown b⟩)

/-- C128. When the visitor has ended - closed, or closed its sending side - nothing of the conversation remains on the server, nor on the client. -/
theorem ended_visitor_leaves_nothing {es : List Ev} {s : St} (h : Reached es s) (hq : Quiet s) (hv : s.vFin = true) :
    SrvDown s ∧ (CliDown s ∨ Refused s) := by
  rcases (conditions_at_rest h hq).2.2 with a | a | a | a
  · rw [hv] at a; exact nomatch a.2.2.2.1
  · exact ⟨a.1, .inl a.2⟩
  · exact ⟨a.1, .inr a.2⟩
  · rw [hv] at a; exact nomatch a.2.2.2.1

/-- C128. The same when the service has ended. -/
theorem ended_service_leaves_nothing {es : List Ev} {s : St} (h : Reached es s) (hq : Quiet s) (hv : s.sFin = true) :
    SrvDown s ∧ CliDown s := by
  have hc : s.cp ≠ .start := fun hx => by
    have := ((told_run h).1.cstart hx).2.2.2.2.2.2.1; rw [hv] at this; cases this
  rcases (conditions_at_rest h hq).2.2 with a | a | a | a
  · rw [hv] at a; exact nomatch a.2.2.2.2.2.2.2
  · exact a
  · exact absurd a.2.2 hc
  · exact absurd a.2.2.2.2.2 hc

/-! ## gt comes to rest -/

def Pc.left : Pc → Nat
  | .start => 12
  | .reading => 8
  | .ending => 7
  | .unlisting => 4
  | .closing => 3
  | .done => 0

def held : Option Frame → Nat
  | none => 0
  | some _ => 1

/-- Work left. -/
def work (s : St) : Nat :=
  3 * s.vIn.length + 3 * s.sIn.length + 2 * s.up.length + 2 * s.dn.length + held s.hold + held s.cHold + s.sp.left + s.cp.left

theorem work_step {s s' : St} {e : Ev} (w : Shape s) (ho : e.own = true) (hs : step s e = some s') : work s' < work s := by
  cases step_cases hs with
  | srvOpen n hr hn hm => simp only [work, hr, Pc.left, List.length_append, List.length_singleton, List.length_drop]; omega
  | srvRead n hr hf h0 hn hm => simp only [work, hr, Pc.left, List.length_append, List.length_singleton, List.length_drop]; omega
  | srvEnd hr he => simp only [work, hr, Pc.left]; omega
  | srvTell hr hf => simp only [work, hr, Pc.left, List.length_append, List.length_singleton]; omega
  | srvSilent hr hf => simp only [work, hr, Pc.left]; omega
  | srvClose hr => simp only [work, hr, Pc.left]; omega
  | srvTake f r hh hd hl => simp only [work, hh, hd, held, List.length_cons]; omega
  | srvDrop f r hh hd hl => simp only [work, hh, hd, held, List.length_cons]; omega
  | srvShut hh => simp only [work, hh, held]; omega
  | srvWrite f hh hc ho hg => simp only [work, hh, held]; omega
  | srvLose f hh hc ho => simp only [work, hh, held]; omega
  | cliRead n hr hf h0 hn hm => simp only [work, hr, Pc.left, List.length_append, List.length_singleton, List.length_drop]; omega
  | cliEnd hr he => simp only [work, hr, Pc.left]; omega
  | cliTell hr hf => simp only [work, hr, Pc.left, List.length_append, List.length_singleton]; omega
  | cliSilent hr hf => simp only [work, hr, Pc.left]; omega
  | cliUnlist hr => simp only [work, hr, Pc.left]; omega
  | cliClose hr => simp only [work, hr, Pc.left]; omega
  | cliDial p r hh hd =>
    have := w.cold (w.head_open hd).1
    simp only [work, hh, hd, held, this, Pc.left, List.length_cons]; omega
  | cliRefuse p r hh hd => simp only [work, hh, hd, held, List.length_cons]; omega
  | cliTake ok f r hh hd ho hl => simp only [work, hh, hd, held, List.length_cons]; omega
  | cliDrop ok f r hh hd ho hl => simp only [work, hh, hd, held, List.length_cons]; omega
  | cliShut hh => simp only [work, hh, held]; omega
  | cliWrite f hh hc ho hg => simp only [work, hh, held]; omega
  | cliLose f hh hc ho => simp only [work, hh, held]; omega
  | _ => cases ho

theorem work_run {es : List Ev} {s s' : St} (w : Shape s) (ho : ∀ e ∈ es, e.own = true) (hs : run s es = some s') :
    es.length + work s' ≤ work s := by
  induction es generalizing s with
  | nil => simp only [run, Option.some.injEq] at hs; subst hs; simp
  | cons e es ih =>
    rw [run_cons] at hs
    cases h1 : step s e with
    | none => rw [h1] at hs; cases hs
    | some s1 =>
      rw [h1] at hs
      have a := work_step w (ho e (List.mem_cons_self ..)) h1
      have b := ih (shape_step w h1) (fun x hx => ho x (List.mem_cons_of_mem _ hx)) hs
      simp only [List.length_cons]; omega

/-- C128. Left alone by visitor, service and clock, gt comes to rest, in whatever order its goroutines run: the number of steps it can still do is
bounded. -/
theorem gt_comes_to_rest {es : List Ev} {s : St} (h : Reached es s) :
    (∃ n, ∀ es' s', (∀ e ∈ es', e.own = true) → run s es' = some s' → es'.length ≤ n) ∧
    (∃ es' s', (∀ e ∈ es', e.own = true) ∧ run s es' = some s' ∧ Quiet s') := by
  have w := shape_run h
  refine ⟨⟨work s, fun es' s' ho hr => by have := work_run w ho hr; omega⟩, ?_⟩
  clear h
  generalize hn : work s = n
  induction n using Nat.strongRecOn generalizing s with
  | _ n ih =>
    by_cases hq : Quiet s
    · exact ⟨[], s, (fun e he => nomatch he), rfl, hq⟩
    · have : ∃ e, e.own = true ∧ step s e ≠ none := by
        apply Classical.byContradiction
        intro hx
        exact hq (fun e he => Classical.byContradiction (fun hy => hx ⟨e, he, hy⟩))
      obtain ⟨e, he, hy⟩ := this
      cases h1 : step s e with
      | none => exact absurd h1 hy
      | some s1 =>
        obtain ⟨es', s', a, b, c⟩ := ih (work s1) (hn ▸ work_step w he h1) (shape_step w h1) rfl
        refine ⟨e :: es', s', fun x hx => ?_, ?_, c⟩
        · rcases List.mem_cons.mp hx with hx | hx
          · exact hx ▸ he
          · exact a x hx
        · rw [run_cons, h1]; exact b

end Verif.Tunnel.Conversation
