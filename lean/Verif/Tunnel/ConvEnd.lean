import Verif.Tunnel.ConvProps
set_option linter.unusedSimpArgs false
set_option linter.unusedVariables false
set_option linter.unusedSectionVars false
/-! C128-C130, continued: whole answers, whole requests, half-closed connections, unreachable services. -/
namespace Verif.Tunnel.Conversation

/-! ## The whole answer -/

/-- The visitor does not end, and nobody waits too long. -/
def Patient : Ev → Prop
  | .vShut | .vClose | .srvTimeout | .cliTimeout => False
  | _ => True

/-- `close` is the last frame, and the only one of its kind. -/
def LastClose (l : List Frame) : Prop := ∃ d, l = d ++ [.close] ∧ Frame.close ∉ d

theorem LastClose.snoc {l : List Frame} (h : Frame.close ∉ l) : LastClose (l ++ [.close]) := ⟨l, rfl, h⟩

theorem LastClose.tail {l r : List Frame} {f : Frame} (h : LastClose l) (he : l = f :: r) :
    (f = .close ∧ r = []) ∨ (f ≠ .close ∧ LastClose r) := by
  obtain ⟨d, h1, h2⟩ := h
  rw [h1] at he
  cases d with
  | nil => simp at he; exact .inl ⟨he.1.symm, he.2⟩
  | cons g d =>
    simp only [List.cons_append, List.cons.injEq] at he
    right
    refine ⟨fun hx => h2 (by rw [he.1, hx]; exact List.mem_cons_self ..), d, he.2.symm, fun hx => h2 (List.mem_cons_of_mem _ hx)⟩

structure Ans (s : St) : Prop where
  v : s.vFin = false ∧ s.vGone = false
  srv : s.sp = .start ∨ s.sp = .reading ∨ s.flag = .remote
  fl : s.flag = .no ∨ s.flag = .remote
  up : Frame.close ∉ s.up ∧ s.cHold ≠ some .close ∧ s.cFlag ≠ .remote
  cf : s.cFlag ≠ .no → s.cp = .done
  cli : s.cp ≠ .start → s.cp ≠ .reading → s.sIn = [] ∧ s.sFin = true
  dn : Frame.close ∈ s.dn → s.flag = .no ∧ s.hold ≠ some .close ∧ LastClose s.dn
  hold : s.hold = some .close → s.dn = [] ∧ s.flag = .no
  fin : s.flag = .remote → s.vGot = s.sSent ∧ s.dn = [] ∧ s.hold = none ∧ s.sFin = true

theorem ans_init : Ans {} := by constructor <;> simp

theorem close_not_snoc {l : List Frame} {p : Frame} (h : Frame.close ∉ l) (hp : p ≠ .close) : Frame.close ∉ l ++ [p] := by
  intro hx
  rcases List.mem_append.mp hx with a | a
  · exact h a
  · rw [List.mem_singleton] at a; exact hp a.symm

theorem ans_step {s s' : St} {e : Ev} (w : Shape s) (t : Told s) (f : FlowDn s) (h : Ans s) (hp : Patient e) (hs : step s e = some s') :
    Ans s' := by
  cases step_cases hs with
  | vShut _ => exact hp.elim
  | vClose _ => exact hp.elim
  | srvTimeout _ => exact hp.elim
  | cliTimeout _ => exact hp.elim
  | vSend b _ => exact ⟨h.v, h.srv, h.fl, h.up, h.cf, h.cli, h.dn, h.hold, h.fin⟩
  | sSend b hf hc =>
    refine ⟨h.v, h.srv, h.fl, h.up, h.cf, fun a b => ?_, h.dn, h.hold, fun a => ?_⟩
    · have := (h.cli a b).2; rw [hf] at this; cases this
    · have := (h.fin a).2.2.2; rw [hf] at this; cases this
  | sShut hf hc =>
    exact ⟨h.v, h.srv, h.fl, h.up, h.cf, fun a b => ⟨(h.cli a b).1, rfl⟩, h.dn, h.hold, fun a => ⟨(h.fin a).1, (h.fin a).2.1, (h.fin a).2.2.1, rfl⟩⟩
  | sClose hf hc =>
    exact ⟨h.v, h.srv, h.fl, h.up, h.cf, fun a b => ⟨(h.cli a b).1, rfl⟩, h.dn, h.hold, fun a => ⟨(h.fin a).1, (h.fin a).2.1, (h.fin a).2.2.1, rfl⟩⟩
  | srvOpen n hr hn hm =>
    exact ⟨h.v, .inr (.inl rfl), h.fl, ⟨close_not_snoc h.up.1 (by simp), h.up.2⟩, h.cf, h.cli, h.dn, h.hold, h.fin⟩
  | srvRead n hr hf h0 hn hm =>
    exact ⟨h.v, h.srv, h.fl, ⟨close_not_snoc h.up.1 (by simp), h.up.2⟩, h.cf, h.cli, h.dn, h.hold, h.fin⟩
  | srvEnd hr he =>
    refine ⟨h.v, .inr (.inr ?_), h.fl, h.up, h.cf, h.cli, h.dn, h.hold, h.fin⟩
    rcases he with a | a
    · rw [h.v.1] at a; exact nomatch a.2
    · exact h.fl.resolve_left a
  | srvTell hr hf =>
    rcases h.srv with a | a | a
    · rw [hr] at a; cases a
    · rw [hr] at a; cases a
    · exact absurd a hf
  | srvSilent hr hf => exact ⟨h.v, .inr (.inr hf), h.fl, h.up, h.cf, h.cli, h.dn, h.hold, h.fin⟩
  | srvClose hr =>
    have hf : s.flag = .remote := by
      rcases h.srv with a | a | a
      · rw [hr] at a; cases a
      · rw [hr] at a; cases a
      · exact a
    have e : s.flag.set .here = s.flag := by rw [hf]; rfl
    rw [e]
    exact ⟨h.v, .inr (.inr hf), h.fl, h.up, h.cf, h.cli, h.dn, h.hold, h.fin⟩
  | srvTake g r hh hd hl =>
    have hf : s.flag = .no := by
      rcases h.fl with a | a
      · exact a
      · have := (h.fin a).2.1; rw [hd] at this; cases this
    refine ⟨h.v, h.srv, h.fl, h.up, h.cf, h.cli, fun hx => ?_, fun hx => ?_, fun hx => ?_⟩
    · have h1 := (h.dn (hd ▸ List.mem_cons_of_mem _ hx)).2.2
      rcases h1.tail hd with ⟨a, b⟩ | ⟨a, b⟩
      · change Frame.close ∈ r at hx; rw [b] at hx; cases hx
      · exact ⟨hf, fun hy => a (by injection hy), b⟩
    · injection hx with hx
      have h1 := (h.dn (by rw [hd, hx]; exact List.mem_cons_self ..)).2.2
      rcases h1.tail hd with ⟨a, b⟩ | ⟨a, b⟩
      · exact ⟨b, hf⟩
      · exact absurd hx a
    · change s.flag = .remote at hx; rw [hf] at hx; cases hx
  | srvDrop g r hh hd hl =>
    exfalso
    rcases h.srv with a | a | a
    · exact absurd (w.cold (w.start a).2.1) (w.not_start_dn hd)
    · rw [w.listed.mpr a] at hl; cases hl
    · have := (h.fin a).2.1; rw [hd] at this; cases this
  | srvShut hh =>
    obtain ⟨h1, h2⟩ := h.hold hh
    have h3 := t.byCli (.inr (.inl hh))
    have h4 := h.cli (fun hx => by rw [hx] at h3; simp at h3) (fun hx => by rw [hx] at h3; simp at h3)
    have h5 := f.eq h2 h.v.2 (fun hx => by rw [hh] at hx; exact nomatch hx.2.2)
    rw [hh, h1, h4.1] at h5
    have e : s.flag.set .remote = .remote := by rw [h2]; rfl
    rw [e]
    refine ⟨h.v, .inr (.inr rfl), .inr rfl, h.up, h.cf, h.cli, fun hx => ?_, (fun hx => nomatch hx), fun _ => ⟨by simpa using h5.symm, h1, rfl, h4.2⟩⟩
    change Frame.close ∈ s.dn at hx; rw [h1] at hx; cases hx
  | srvWrite g hh hc ho hg =>
    refine ⟨h.v, h.srv, h.fl, h.up, h.cf, h.cli, fun hx => ⟨ho, by simp, (h.dn hx).2.2⟩, (fun hx => nomatch hx), fun hx => ?_⟩
    change s.flag = .remote at hx; rw [ho] at hx; cases hx
  | srvLose g hh hc ho =>
    exfalso
    rcases ho with a | a
    · have := (h.fin (h.fl.resolve_left a)).2.2.1; rw [hh] at this; cases this
    · rw [h.v.2] at a; cases a
  | cliRead n hr hf h0 hn hm =>
    have hb : ¬ (Frame.close ∈ s.dn ∨ s.hold = some .close ∨ s.flag = .remote) := fun hx => by
      have := t.byCli hx; rw [hr] at this; simp at this
    refine ⟨h.v, h.srv, h.fl, h.up, h.cf, fun a b => absurd hr b, fun hx => absurd hx (close_not_snoc (fun hy => hb (.inl hy)) (by simp)),
      fun hx => absurd (.inr (.inl hx)) hb, fun hx => absurd (.inr (.inr hx)) hb⟩
  | cliEnd hr he =>
    refine ⟨h.v, h.srv, h.fl, h.up, fun hx => ?_, fun _ _ => ?_, h.dn, h.hold, h.fin⟩
    · have := h.cf hx; rw [hr] at this; cases this
    · rcases he with a | a
      · exact a
      · have := h.cf a; rw [hr] at this; cases this
  | cliTell hr hf =>
    have hb : ¬ (Frame.close ∈ s.dn ∨ s.hold = some .close ∨ s.flag = .remote) := fun hx => by
      have := t.byCli hx; rw [hr] at this; simp at this
    refine ⟨h.v, h.srv, h.fl, h.up, fun hx => ?_, fun _ _ => h.cli (by simp [hr]) (by simp [hr]), fun _ => ⟨h.fl.resolve_right (fun hx => hb (.inr (.inr hx))),
      fun hx => hb (.inr (.inl hx)), .snoc (fun hx => hb (.inl hx))⟩, fun hx => absurd (.inr (.inl hx)) hb, fun hx => absurd (.inr (.inr hx)) hb⟩
    have := h.cf hx; rw [hr] at this; cases this
  | cliSilent hr hf => exact absurd hf h.up.2.2
  | cliUnlist hr =>
    refine ⟨h.v, h.srv, h.fl, h.up, fun hx => ?_, fun _ _ => h.cli (by simp [hr]) (by simp [hr]), h.dn, h.hold, h.fin⟩
    have := h.cf hx; rw [hr] at this; cases this
  | cliClose hr =>
    refine ⟨h.v, h.srv, h.fl, ⟨h.up.1, h.up.2.1, fun hx => h.up.2.2 (Flag.set_here_remote.mp hx)⟩, fun _ => rfl, fun _ _ => h.cli (by simp [hr]) (by simp [hr]), h.dn, h.hold, h.fin⟩
  | cliDial p r hh hd =>
    have hc := w.cold (w.head_open hd).1
    refine ⟨h.v, h.srv, h.fl, ⟨fun hx => h.up.1 (hd ▸ List.mem_cons_of_mem _ hx), by simp, h.up.2.2⟩, fun hx => ?_, (fun _ hb => absurd rfl hb), h.dn, h.hold, h.fin⟩
    have := h.cf hx; rw [hc] at this; cases this
  | cliRefuse p r hh hd =>
    exact ⟨h.v, h.srv, h.fl, ⟨fun hx => h.up.1 (hd ▸ List.mem_cons_of_mem _ hx), h.up.2⟩, h.cf, h.cli, h.dn, h.hold, h.fin⟩
  | cliTake ok g r hh hd ho hl =>
    refine ⟨h.v, h.srv, h.fl, ⟨fun hx => h.up.1 (hd ▸ List.mem_cons_of_mem _ hx), fun hx => h.up.1 ?_, h.up.2.2⟩, h.cf, h.cli, h.dn, h.hold, h.fin⟩
    injection hx with hx; rw [hd, hx]; exact List.mem_cons_self ..
  | cliDrop ok g r hh hd ho hl =>
    exact ⟨h.v, h.srv, h.fl, ⟨fun hx => h.up.1 (hd ▸ List.mem_cons_of_mem _ hx), h.up.2⟩, h.cf, h.cli, h.dn, h.hold, h.fin⟩
  | cliShut hh => exact absurd hh h.up.2.1
  | cliWrite g hh hc ho hg => exact ⟨h.v, h.srv, h.fl, ⟨h.up.1, by simp, h.up.2.2⟩, h.cf, h.cli, h.dn, h.hold, h.fin⟩
  | cliLose g hh hc ho => exact ⟨h.v, h.srv, h.fl, ⟨h.up.1, by simp, h.up.2.2⟩, h.cf, h.cli, h.dn, h.hold, h.fin⟩

theorem ans_run {es : List Ev} {s : St} (hp : ∀ e ∈ es, Patient e) (h : Reached es s) : Shape s ∧ Told s ∧ FlowDn s ∧ Ans s :=
  run_inv' Patient (fun s => Shape s ∧ Told s ∧ FlowDn s ∧ Ans s)
    (fun _ _ _ c a b => ⟨shape_step a.1 b, told_step a.1 a.2.1 b, flowDn_step a.1 a.2.2.1 b, ans_step a.1 a.2.1 a.2.2.1 a.2.2.2 c b⟩) es _ _ hp
    ⟨shape_init, told_init, ⟨by exact List.prefix_refl _, fun _ _ _ => rfl⟩, ans_init⟩ h

/-- C128. A visitor that keeps its connection open gets the whole answer, and sees its end: after the service has ended, and gt has done what it can, everything
the service ever sent has arrived, and the visitor's connection is closed - in whatever order the goroutines run and however reads are cut. Nor is it
closed any earlier. -/
theorem whole_answer {es : List Ev} {s : St} (hp : ∀ e ∈ es, Patient e) (h : Reached es s) :
    (s.flag ≠ .no → s.sFin = true ∧ s.vGot = s.sSent) ∧
    (Quiet s → s.cp ≠ .start → s.vGot = s.sSent ∧ (s.sFin = true ↔ s.flag ≠ .no)) := by
  obtain ⟨w, t, f, a⟩ := ans_run hp h
  have h1 : s.flag ≠ .no → s.sFin = true ∧ s.vGot = s.sSent := fun hx => by
    have := a.fin (a.fl.resolve_left hx); exact ⟨this.2.2.2, this.1⟩
  refine ⟨h1, fun hq hc => ?_⟩
  obtain ⟨q1, q2, q⟩ := conditions_at_rest h hq
  rcases q with q | q | q | q
  · have h2 := f.eq q.2.1 a.v.2 (fun hx => by have := w.listed.mpr q.1; rw [hx.2.1] at this; cases this)
    rw [hold_none hq, q2, q.2.2.2.2.2.2.1] at h2
    refine ⟨by simpa using h2.symm, ?_, fun hx => (h1 hx).1⟩
    intro hx; rw [q.2.2.2.2.2.2.2] at hx; cases hx
  · exact ⟨(h1 q.1.2.2).2, fun _ => q.1.2.2, fun hx => (h1 hx).1⟩
  · exact absurd q.2.2 hc
  · exact absurd q.2.2.2.2.2 hc

/-! ## The whole request -/

/-- The service is reached and does not end, and nobody waits too long. -/
def Serving : Ev → Prop
  | .sShut | .sClose | .srvTimeout | .cliTimeout | .cliTake false => False
  | _ => True

structure Req (s : St) : Prop where
  v : s.sFin = false ∧ s.sGone = false
  cli : s.cp = .start ∨ s.cp = .reading ∨ s.cFlag = .remote
  fl : s.cFlag = .no ∨ s.cFlag = .remote
  dn : Frame.close ∉ s.dn ∧ s.hold ≠ some .close ∧ s.flag ≠ .remote
  sf : s.flag ≠ .no → s.sp = .done
  srv : s.sp ≠ .start → s.sp ≠ .reading → s.vIn = [] ∧ s.vFin = true
  up : Frame.close ∈ s.up → s.cFlag = .no ∧ s.cHold ≠ some .close ∧ LastClose s.up
  hold : s.cHold = some .close → s.up = [] ∧ s.cFlag = .no
  fin : s.cFlag = .remote → s.sGot = s.vSent ∧ s.up = [] ∧ s.cHold = none ∧ s.vFin = true
  met : s.dialled = true → s.cp ≠ .start

theorem req_init : Req {} := by constructor <;> simp

theorem req_step {s s' : St} {e : Ev} (w : Shape s) (t : Told s) (f : FlowUp s) (h : Req s) (hp : Serving e) (hs : step s e = some s') :
    Req s' := by
  cases step_cases hs with
  | sShut _ => exact hp.elim
  | sClose _ => exact hp.elim
  | srvTimeout _ => exact hp.elim
  | cliTimeout _ => exact hp.elim
  | cliRefuse p r hh hd => exact hp.elim
  | sSend b _ _ => exact ⟨h.v, h.cli, h.fl, h.dn, h.sf, h.srv, h.up, h.hold, h.fin, h.met⟩
  | vSend b hf =>
    refine ⟨h.v, h.cli, h.fl, h.dn, h.sf, fun a b => ?_, h.up, h.hold, fun a => ?_, h.met⟩
    · have := (h.srv a b).2; rw [hf] at this; cases this
    · have := (h.fin a).2.2.2; rw [hf] at this; cases this
  | vShut hf =>
    exact ⟨h.v, h.cli, h.fl, h.dn, h.sf, fun a b => ⟨(h.srv a b).1, rfl⟩, h.up, h.hold, (fun a => ⟨(h.fin a).1, (h.fin a).2.1, (h.fin a).2.2.1, rfl⟩), h.met⟩
  | vClose hf =>
    exact ⟨h.v, h.cli, h.fl, h.dn, h.sf, fun a b => ⟨(h.srv a b).1, rfl⟩, h.up, h.hold, (fun a => ⟨(h.fin a).1, (h.fin a).2.1, (h.fin a).2.2.1, rfl⟩), h.met⟩
  | srvOpen n hr hn hm =>
    obtain ⟨h1, h2, h3, h4⟩ := w.start hr
    have hc : ¬ (Frame.close ∈ s.up ∨ s.cHold = some .close ∨ s.cFlag = .remote) := fun hx => by
      have := t.bySrv hx; rw [hr] at this; simp at this
    refine ⟨h.v, h.cli, h.fl, h.dn, fun hx => absurd h4 hx, (fun _ hx => absurd rfl hx), fun hx => absurd hx (close_not_snoc (fun hy => hc (.inl hy)) (by simp)),
      (fun hx => absurd (.inr (.inl hx)) hc), (fun hx => absurd (.inr (.inr hx)) hc), h.met⟩
  | srvRead n hr hf h0 hn hm =>
    have hc : ¬ (Frame.close ∈ s.up ∨ s.cHold = some .close ∨ s.cFlag = .remote) := fun hx => by
      have := t.bySrv hx; rw [hr] at this; simp at this
    exact ⟨h.v, h.cli, h.fl, h.dn, h.sf, (fun _ hx => absurd hr hx), fun hx => absurd hx (close_not_snoc (fun hy => hc (.inl hy)) (by simp)),
      (fun hx => absurd (.inr (.inl hx)) hc), (fun hx => absurd (.inr (.inr hx)) hc), h.met⟩
  | srvEnd hr he =>
    refine ⟨h.v, h.cli, h.fl, h.dn, fun hx => ?_, fun _ _ => ?_, h.up, h.hold, h.fin, h.met⟩
    · have := h.sf hx; rw [hr] at this; cases this
    · rcases he with a | a
      · exact a
      · have := h.sf a; rw [hr] at this; cases this
  | srvTell hr hf =>
    have hc : ¬ (Frame.close ∈ s.up ∨ s.cHold = some .close ∨ s.cFlag = .remote) := fun hx => by
      have := t.bySrv hx; rw [hr] at this; simp at this
    refine ⟨h.v, h.cli, h.fl, h.dn, fun hx => ?_, fun _ _ => h.srv (by simp [hr]) (by simp [hr]),
      fun _ => ⟨h.fl.resolve_right (fun hx => hc (.inr (.inr hx))), fun hx => hc (.inr (.inl hx)), .snoc (fun hx => hc (.inl hx))⟩,
      (fun hx => absurd (.inr (.inl hx)) hc), (fun hx => absurd (.inr (.inr hx)) hc), h.met⟩
    have := h.sf hx; rw [hr] at this; cases this
  | srvSilent hr hf => exact absurd hf h.dn.2.2
  | srvClose hr =>
    exact ⟨h.v, h.cli, h.fl, ⟨h.dn.1, h.dn.2.1, fun hx => h.dn.2.2 (Flag.set_here_remote.mp hx)⟩, (fun _ => rfl),
      fun _ _ => h.srv (by simp [hr]) (by simp [hr]), h.up, h.hold, h.fin, h.met⟩
  | srvTake g r hh hd hl =>
    refine ⟨h.v, h.cli, h.fl, ⟨fun hx => h.dn.1 (hd ▸ List.mem_cons_of_mem _ hx), fun hx => h.dn.1 ?_, h.dn.2.2⟩, h.sf, h.srv, h.up, h.hold, h.fin, h.met⟩
    injection hx with hx; rw [hd, hx]; exact List.mem_cons_self ..
  | srvDrop g r hh hd hl =>
    exact ⟨h.v, h.cli, h.fl, ⟨fun hx => h.dn.1 (hd ▸ List.mem_cons_of_mem _ hx), h.dn.2⟩, h.sf, h.srv, h.up, h.hold, h.fin, h.met⟩
  | srvShut hh => exact absurd hh h.dn.2.1
  | srvWrite g hh hc ho hg => exact ⟨h.v, h.cli, h.fl, ⟨h.dn.1, by simp, h.dn.2.2⟩, h.sf, h.srv, h.up, h.hold, h.fin, h.met⟩
  | srvLose g hh hc ho => exact ⟨h.v, h.cli, h.fl, ⟨h.dn.1, by simp, h.dn.2.2⟩, h.sf, h.srv, h.up, h.hold, h.fin, h.met⟩
  | cliRead n hr hf h0 hn hm =>
    exact ⟨h.v, h.cli, h.fl, ⟨close_not_snoc h.dn.1 (by simp), h.dn.2⟩, h.sf, h.srv, h.up, h.hold, h.fin, h.met⟩
  | cliEnd hr he =>
    refine ⟨h.v, .inr (.inr ?_), h.fl, h.dn, h.sf, h.srv, h.up, h.hold, h.fin, (fun _ => by simp)⟩
    rcases he with a | a
    · rw [h.v.1] at a; exact nomatch a.2
    · exact h.fl.resolve_left a
  | cliTell hr hf =>
    rcases h.cli with a | a | a
    · rw [hr] at a; cases a
    · rw [hr] at a; cases a
    · exact absurd a hf
  | cliSilent hr hf => exact ⟨h.v, .inr (.inr hf), h.fl, h.dn, h.sf, h.srv, h.up, h.hold, h.fin, (fun _ => by simp)⟩
  | cliUnlist hr =>
    have hf : s.cFlag = .remote := by
      rcases h.cli with a | a | a
      · rw [hr] at a; cases a
      · rw [hr] at a; cases a
      · exact a
    exact ⟨h.v, .inr (.inr hf), h.fl, h.dn, h.sf, h.srv, h.up, h.hold, h.fin, (fun _ => by simp)⟩
  | cliClose hr =>
    have hf : s.cFlag = .remote := by
      rcases h.cli with a | a | a
      · rw [hr] at a; cases a
      · rw [hr] at a; cases a
      · exact a
    have e : s.cFlag.set .here = s.cFlag := by rw [hf]; rfl
    rw [e]
    exact ⟨h.v, .inr (.inr hf), h.fl, h.dn, h.sf, h.srv, h.up, h.hold, h.fin, (fun _ => by simp)⟩
  | cliDial p r hh hd =>
    have hc := (w.cstart (w.cold (w.head_open hd).1)).2.1
    refine ⟨h.v, .inr (.inl rfl), h.fl, h.dn, h.sf, h.srv, fun hx => ?_, (fun hx => nomatch hx), fun hx => ?_, (fun _ => by simp)⟩
    · have h1 := (h.up (hd ▸ List.mem_cons_of_mem _ hx)).2.2
      rcases h1.tail hd with ⟨a, b⟩ | ⟨a, b⟩
      · cases a
      · exact ⟨hc, by simp, b⟩
    · change s.cFlag = .remote at hx; rw [hc] at hx; cases hx
  | cliTake ok g r hh hd ho hl =>
    have hf : s.cFlag = .no := by
      rcases h.fl with a | a
      · exact a
      · have := (h.fin a).2.1; rw [hd] at this; cases this
    refine ⟨h.v, h.cli, h.fl, h.dn, h.sf, h.srv, fun hx => ?_, fun hx => ?_, fun hx => ?_, h.met⟩
    · have h1 := (h.up (hd ▸ List.mem_cons_of_mem _ hx)).2.2
      rcases h1.tail hd with ⟨a, b⟩ | ⟨a, b⟩
      · change Frame.close ∈ r at hx; rw [b] at hx; cases hx
      · exact ⟨hf, fun hy => a (by injection hy), b⟩
    · injection hx with hx
      have h1 := (h.up (by rw [hd, hx]; exact List.mem_cons_self ..)).2.2
      rcases h1.tail hd with ⟨a, b⟩ | ⟨a, b⟩
      · exact ⟨b, hf⟩
      · exact absurd hx a
    · change s.cFlag = .remote at hx; rw [hf] at hx; cases hx
  | cliDrop ok g r hh hd ho hl =>
    exfalso
    have h0 := h.met (w.head_other hd ho)
    rcases h.cli with a | a | a
    · exact h0 a
    · rw [w.clisted.mpr (.inl a)] at hl; cases hl
    · have := (h.fin a).2.1; rw [hd] at this; cases this
  | cliShut hh =>
    obtain ⟨h1, h2⟩ := h.hold hh
    have h3 := t.bySrv (.inr (.inl hh))
    have h4 := h.srv (fun hx => by rw [hx] at h3; simp at h3) (fun hx => by rw [hx] at h3; simp at h3)
    have h5 := f.eq h2 h.v.2 (fun hx => by rw [hh] at hx; exact nomatch hx.2.2)
    rw [hh, h1, h4.1] at h5
    have e : s.cFlag.set .remote = .remote := by rw [h2]; rfl
    rw [e]
    refine ⟨h.v, .inr (.inr rfl), .inr rfl, h.dn, h.sf, h.srv, fun hx => ?_, (fun hx => nomatch hx), (fun _ => ⟨by simpa using h5.symm, h1, rfl, h4.2⟩), h.met⟩
    change Frame.close ∈ s.up at hx; rw [h1] at hx; cases hx
  | cliWrite g hh hc ho hg =>
    refine ⟨h.v, h.cli, h.fl, h.dn, h.sf, h.srv, fun hx => ⟨ho, by simp, (h.up hx).2.2⟩, (fun hx => nomatch hx), fun hx => ?_, h.met⟩
    change s.cFlag = .remote at hx; rw [ho] at hx; cases hx
  | cliLose g hh hc ho =>
    exfalso
    rcases ho with a | a
    · have := (h.fin (h.fl.resolve_left a)).2.2.1; rw [hh] at this; cases this
    · rw [h.v.2] at a; cases a

theorem req_run {es : List Ev} {s : St} (hp : ∀ e ∈ es, Serving e) (h : Reached es s) : Shape s ∧ Told s ∧ FlowUp s ∧ Req s :=
  run_inv' Serving (fun s => Shape s ∧ Told s ∧ FlowUp s ∧ Req s)
    (fun _ _ _ c a b => ⟨shape_step a.1 b, told_step a.1 a.2.1 b, flowUp_step a.1 a.2.2.1 b, req_step a.1 a.2.1 a.2.2.1 a.2.2.2 c b⟩) es _ _ hp
    ⟨shape_init, told_init, ⟨by exact List.prefix_refl _, fun _ _ _ => rfl⟩, req_init⟩ h

/-- C128. A service that keeps its connection open gets the whole request, also when the visitor has meanwhile closed, and its connection is closed
after that and not before. -/
theorem whole_request {es : List Ev} {s : St} (hp : ∀ e ∈ es, Serving e) (h : Reached es s) :
    (s.cFlag ≠ .no → s.vFin = true ∧ s.sGot = s.vSent) ∧
    (Quiet s → s.sGot = s.vSent ∧ (s.vFin = true ↔ s.cFlag ≠ .no)) := by
  obtain ⟨w, t, f, a⟩ := req_run hp h
  have h1 : s.cFlag ≠ .no → s.vFin = true ∧ s.sGot = s.vSent := fun hx => by
    have := a.fin (a.fl.resolve_left hx); exact ⟨this.2.2.2, this.1⟩
  refine ⟨h1, fun hq => ?_⟩
  obtain ⟨q1, q2, q⟩ := conditions_at_rest h hq
  rcases q with q | q | q | q
  · have h2 := f.eq q.2.2.2.2.2.1 a.v.2 (fun hx => by have := w.clisted.mpr (.inl q.2.2.2.2.1); rw [hx.2.1] at this; cases this)
    rw [cHold_none hq, q1, q.2.2.1] at h2
    refine ⟨by simpa using h2.symm, ?_, fun hx => (h1 hx).1⟩
    intro hx; rw [q.2.2.2.1] at hx; cases hx
  · exact ⟨(h1 q.2.2.2).2, fun _ => q.2.2.2, fun hx => (h1 hx).1⟩
  · exact absurd q.2.2 (a.met q.2.1)
  · exact absurd q.2.2.2.2.2 (a.met q.2.2.2.2.1)

end Verif.Tunnel.Conversation
