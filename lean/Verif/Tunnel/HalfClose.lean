import Verif.Tunnel.ConvEnd
set_option linter.unusedSimpArgs false
set_option linter.unusedVariables false
set_option linter.unusedSectionVars false
/-! C129: closing one direction of a connection. C130: a service that cannot be reached. And examples for C128. -/
namespace Verif.Tunnel.Conversation

theorem quiet_of_rest {s : St} (h : Rest s) (hd : s.dialled = true) : Quiet s := by
  intro e ho
  cases hs : step s e with
  | none => rfl
  | some s' =>
    exfalso
    obtain ⟨h1, h2, h3, h4, h5, h6⟩ := h
    have hcp : s.cp = .ending ∨ s.cp = .unlisting ∨ s.cp = .closing → False := by
      intro hx; rcases h6 with a | a | a
      · rw [a] at hx; simp at hx
      · rw [a.1] at hx; simp at hx
      · rw [a] at hx; simp at hx
    have hsp : s.sp = .start ∨ s.sp = .ending ∨ s.sp = .closing → False := by
      intro hx; rcases h1 with a | a
      · rw [a.1] at hx; simp at hx
      · rw [a] at hx; simp at hx
    cases step_cases hs with
    | srvOpen n hr _ _ => exact hsp (.inl hr)
    | srvRead n hr hf h0 hn hm =>
      rcases h1 with a | a
      · rw [a.2.2.1] at hn; simp at hn; omega
      · rw [a] at hr; cases hr
    | srvEnd hr he =>
      rcases h1 with a | a
      · rcases he with b | b
        · rw [a.2.2.2] at b; exact nomatch b.2
        · exact b a.2.1
      · rw [a] at hr; cases hr
    | srvTell hr _ => exact hsp (.inr (.inl hr))
    | srvSilent hr _ => exact hsp (.inr (.inl hr))
    | srvClose hr => exact hsp (.inr (.inr hr))
    | srvTake f r _ hd _ => rw [h3] at hd; cases hd
    | srvDrop f r _ hd _ => rw [h3] at hd; cases hd
    | srvShut hh => rw [h2] at hh; cases hh
    | srvWrite f hh _ _ _ => rw [h2] at hh; cases hh
    | srvLose f hh _ _ => rw [h2] at hh; cases hh
    | cliRead n hr hf h0 hn hm =>
      rcases h6 with a | a | a
      · rw [a] at hr; cases hr
      · rw [a.2.2.1] at hn; simp at hn; omega
      · rw [a] at hr; cases hr
    | cliEnd hr he =>
      rcases h6 with a | a | a
      · rw [a] at hr; cases hr
      · rcases he with b | b
        · rw [a.2.2.2] at b; exact nomatch b.2
        · exact b a.2.1
      · rw [a] at hr; cases hr
    | cliTell hr _ => exact hcp (.inl hr)
    | cliSilent hr _ => exact hcp (.inl hr)
    | cliUnlist hr => exact hcp (.inr (.inl hr))
    | cliClose hr => exact hcp (.inr (.inr hr))
    | cliDial p r _ hd => rw [h5] at hd; cases hd
    | cliRefuse p r _ hd => rw [h5] at hd; cases hd
    | cliTake ok f r _ hd _ _ => rw [h5] at hd; cases hd
    | cliDrop ok f r _ hd _ _ => rw [h5] at hd; cases hd
    | cliShut hh => rw [h4] at hh; cases hh
    | cliWrite f hh _ _ _ => rw [h4] at hh; cases hh
    | cliLose f hh _ _ => rw [h4] at hh; cases hh
    | _ => cases ho

/-! ## C129: after the visitor's half has ended -/

/-- The server has seen the end of the visitor's stream, and writes nothing to the visitor at the moment. -/
structure Over (s : St) (g : Bytes) : Prop where
  sp : s.sp ≠ .start ∧ s.sp ≠ .reading
  hold : s.hold = none ∨ s.hold = some .close
  got : s.vGot = g

theorem over_step {s s' : St} {e : Ev} {g : Bytes} (w : Shape s) (h : Over s g) (hs : step s e = some s') : Over s' g := by
  have hl : s.listed = false := by
    cases hx : s.listed
    · rfl
    · exact absurd (w.listed.mp hx) h.sp.2
  cases step_cases hs with
  | srvTimeout hr => exact absurd hr h.sp.2
  | srvOpen n hr _ _ => exact absurd hr h.sp.1
  | srvEnd hr _ => exact absurd hr h.sp.2
  | srvTell _ _ => exact ⟨by simp, h.hold, h.got⟩
  | srvSilent _ _ => exact ⟨by simp, h.hold, h.got⟩
  | srvClose _ => exact ⟨by simp, h.hold, h.got⟩
  | srvTake f r _ _ hx => rw [hl] at hx; cases hx
  | srvShut _ => exact ⟨h.sp, .inl rfl, h.got⟩
  | srvWrite f hh hc _ _ =>
    rcases h.hold with a | a
    · rw [a] at hh; cases hh
    · rw [a] at hh; injection hh with hh; exact absurd hh.symm hc
  | srvLose f hh hc _ => exact ⟨h.sp, .inl rfl, h.got⟩
  | _ => exact ⟨h.sp, h.hold, h.got⟩

theorem over_run {es : List Ev} {s s' : St} {g : Bytes} (w : Shape s) (h : Over s g) (hr : run s es = some s') : Over s' g :=
  (run_inv (fun s => Shape s ∧ Over s g) (fun _ _ _ a b => ⟨shape_step a.1 b, over_step a.1 a.2 b⟩) es s s' ⟨w, h⟩ hr).2

/-- C129, violated for every conversation: from the moment the server has read the end of the visitor's stream, and is through with a write to the
visitor it may just be doing, the visitor receives nothing more, whatever the service still sends and whoever runs when. -/
theorem end_of_request_ends_the_answer {es es' : List Ev} {s s' : St} (h : Reached (es ++ [.srvEnd]) s) (hh : s.hold = none)
    (h' : run s es' = some s') : s'.vGot = s.vGot := by
  have w := shape_run h
  have hsp : s.sp = .ending := by
    rw [Reached, run_append] at h
    cases hx : run {} es with
    | none => rw [hx] at h; cases h
    | some t =>
      rw [hx] at h
      simp only [run] at h
      cases hs : step t .srvEnd with
      | none => rw [hs] at h; cases h
      | some t' =>
        rw [hs] at h
        simp only [Option.some.injEq] at h
        subst h
        cases step_cases hs with
        | srvEnd _ _ => rfl
  exact (over_run w ⟨by simp [hsp], .inl hh, rfl⟩ h').got

/-- C129, in particular: if the server reads the end of the visitor's stream before the service has begun to answer, the answer is lost as a whole. -/
theorem early_end_loses_the_answer {es es' : List Ev} {s s' : St} (h : Reached es s) (hf : s.sSent = [])
    (h' : run s (.srvEnd :: es') = some s') : s'.vGot = [] := by
  obtain ⟨w, _, f⟩ := flows_run h
  have hg : s.vGot = [] := by
    have := f.pre; rw [hf] at this; exact List.prefix_nil.mp this
  rw [run_cons] at h'
  cases hs : step s .srvEnd with
  | none => rw [hs] at h'; cases h'
  | some t =>
    rw [hs] at h'
    cases step_cases hs with
    | srvEnd hr he =>
      have hhold : s.hold = none ∨ s.hold = some .close ∨ ∃ p, s.hold = some (.data p) := by
        cases hx : s.hold with
        | none => exact .inl rfl
        | some x =>
          cases x with
          | close => exact .inr (.inl rfl)
          | data p => exact .inr (.inr ⟨p, rfl⟩)
          | open_ p => have := w.noOpenHold _ hx; cases this
      have w' := shape_step w hs
      -- a data frame in hand is empty: nothing was sent
      have key : ∀ (es' : List Ev) (u : St), Shape u → u.sp ≠ .start → u.sp ≠ .reading → u.vGot = [] →
          (u.hold = none ∨ u.hold = some .close ∨ ∃ p, u.hold = some (.data p) ∧ (p = [] ∨ u.flag ≠ .no ∨ u.vGone = true)) → ∀ u', run u es' = some u' → u'.vGot = [] := by
        intro es'
        induction es' with
        | nil => intro u _ _ _ hu _ u' hr; simp only [run, Option.some.injEq] at hr; exact hr ▸ hu
        | cons e es' ih =>
          intro u wu h1 h2 hu hh u' hr
          rw [run_cons] at hr
          cases hs1 : step u e with
          | none => rw [hs1] at hr; cases hr
          | some t1 =>
            rw [hs1] at hr
            have wt := shape_step wu hs1
            have hl : u.listed = false := by
              cases hx : u.listed
              · rfl
              · exact absurd (wu.listed.mp hx) h2
            have go : t1.sp ≠ .start → t1.sp ≠ .reading → t1.vGot = [] → (t1.hold = none ∨ t1.hold = some .close ∨ ∃ p, t1.hold = some (.data p) ∧ (p = [] ∨ t1.flag ≠ .no ∨ t1.vGone = true)) →
                u'.vGot = [] := fun a b c d => ih t1 wt a b c d u' hr
            cases step_cases hs1 with
            | srvTimeout hx => exact absurd hx h2
            | srvOpen n hx _ _ => exact absurd hx h1
            | srvEnd hx _ => exact absurd hx h2
            | srvTell _ _ => exact go (by simp) (by simp) hu hh
            | srvSilent _ _ => exact go (by simp) (by simp) hu hh
            | srvClose _ =>
              refine go (by simp) (by simp) hu ?_
              rcases hh with a | a | ⟨p, a, b⟩
              · exact .inl a
              · exact .inr (.inl a)
              · exact .inr (.inr ⟨p, a, .inr (.inl (Flag.set_ne (by simp)))⟩)
            | srvTake f r _ _ hx => rw [hl] at hx; cases hx
            | srvShut _ => exact go h1 h2 hu (.inl rfl)
            | srvWrite f hh2 hc ho hg =>
              refine go h1 h2 ?_ (.inl rfl)
              rcases hh with a | a | ⟨p, a, b⟩
              · rw [a] at hh2; cases hh2
              · rw [a] at hh2; injection hh2 with hh2; exact absurd hh2.symm hc
              · rw [a] at hh2; injection hh2 with hh2
                rcases b with b | b | b
                · simp [hu, ← hh2, b]
                · exact absurd ho b
                · rw [hg] at b; cases b
            | srvLose f hh2 hc _ => exact go h1 h2 hu (.inl rfl)
            | vClose _ =>
              refine go h1 h2 hu ?_
              rcases hh with a | a | ⟨p, a, b⟩
              · exact .inl a
              · exact .inr (.inl a)
              · exact .inr (.inr ⟨p, a, .inr (.inr rfl)⟩)
            | _ => exact go h1 h2 hu hh
      refine key es' _ w' (by simp) (by simp) hg ?_ s' h'
      rcases hhold with a | a | ⟨p, a⟩
      · exact .inl a
      · exact .inr (.inl a)
      · refine .inr (.inr ⟨p, a, ?_⟩)
        by_cases h1 : s.flag = .no
        · cases h2 : s.vGone
          · left
            have := f.eq h1 h2 (fun hx => by rw [a] at hx; exact nomatch hx.2.2)
            rw [hf, a, hg] at this
            simp at this
            exact this.1
          · exact .inr (.inr rfl)
        · exact .inr (.inl h1)

/-- C129, an instance for every request that fits the first frame, and every answer: the visitor sends its request, closes its sending side and waits for the
answer; the service gets the whole request, sends its answer and ends; nobody timed out; gt is at rest; the visitor has received nothing. -/
theorem half_closed_visitor_gets_no_answer (q a : Bytes) (hq : q.length ≤ 4084) :
    ∃ es s, Reached es s ∧ (∀ e ∈ es, e ≠ .vClose ∧ e ≠ .sClose ∧ e ≠ .srvTimeout ∧ e ≠ .cliTimeout ∧ e ≠ .cliTake false) ∧ Quiet s ∧
      s.sGot = q ∧ s.sSent = a ∧ s.sFin = true ∧ s.vGone = false ∧ s.vGot = [] := by
  refine ⟨[.vSend q, .vShut, .srvOpen q.length, .srvEnd, .srvTell, .srvClose, .cliTake true, .cliDo, .sSend a, .sShut, .cliTake true, .cliDo,
    .cliEnd, .cliTell, .cliUnlist, .cliClose],
    { vSent := q, vIn := [], vFin := true, sp := .done, flag := .here, dialled := true, cp := .done, cFlag := .remote, sSent := a, sIn := a, sFin := true,
      sGot := q }, ?_, by simp, ?_, rfl, rfl, rfl, rfl, rfl⟩
  · simp [Reached, run, step, hq, atEnd, Flag.set, Frame.payload]
  · exact quiet_of_rest ⟨.inr rfl, rfl, rfl, rfl, rfl, .inr (.inr rfl)⟩ rfl

/-- C129, the other direction: the service closes its sending side and goes on reading; what the visitor sends from then on does not reach it. -/
theorem half_closed_service_gets_no_more (q r : Bytes) (hq : q.length ≤ 4084) :
    ∃ es s, Reached es s ∧ (∀ e ∈ es, e ≠ .vClose ∧ e ≠ .sClose ∧ e ≠ .vShut ∧ e ≠ .srvTimeout ∧ e ≠ .cliTimeout ∧ e ≠ .cliTake false) ∧ Quiet s ∧
      s.vSent = q ++ r ∧ s.sGone = false ∧ s.sGot = q := by
  refine ⟨[.vSend q, .srvOpen q.length, .cliTake true, .cliDo, .sShut, .cliEnd, .cliTell, .cliUnlist, .cliClose, .vSend r, .srvTake, .srvDo, .srvEnd, .srvTell, .srvClose],
    { vSent := q ++ r, vIn := r, sp := .done, flag := .remote, dialled := true, cp := .done, cFlag := .here, sFin := true,
      sGot := q }, ?_, by simp, ?_, rfl, rfl, rfl⟩
  · simp [Reached, run, step, hq, atEnd, Flag.set, Frame.payload]
  · exact quiet_of_rest ⟨.inr rfl, rfl, rfl, rfl, rfl, .inr (.inr rfl)⟩ rfl

/-- C129, the part that holds: who closes only after having seen the other side's end loses nothing. For the visitor: as long as it has not
closed, and nobody timed out, whatever the service sends arrives (`whole_answer`); once its connection has been closed by the server it has everything, and
closing then takes nothing away. -/
theorem closing_after_the_end_is_safe_partial {es es' : List Ev} {s s' : St} (hp : ∀ e ∈ es, Patient e) (h : Reached es s) (hf : s.flag ≠ .no)
    (h' : run s es' = some s') : s'.vGot = s'.sSent := by
  obtain ⟨w, t, f, a⟩ := ans_run hp h
  have h0 := a.fl.resolve_left hf
  obtain ⟨h1, h2, h3, h4⟩ := a.fin h0
  have hcp := t.byCli (.inr (.inr h0))
  have inv := run_inv (fun s => s.flag = .remote ∧ s.vGot = s.sSent ∧ s.sFin = true) (fun u e u' hu hs => by
    obtain ⟨a1, a2, a3⟩ := hu
    have keep : ∀ g : Flag, u.flag.set g = .remote := fun g => by rw [a1]; rfl
    cases step_cases hs with
    | sSend b hx _ => rw [a3] at hx; cases hx
    | sShut hx _ => rw [a3] at hx; cases hx
    | sClose _ _ => exact ⟨a1, a2, rfl⟩
    | srvClose _ => exact ⟨keep _, a2, a3⟩
    | srvShut _ => exact ⟨keep _, a2, a3⟩
    | srvWrite f _ _ ho _ => rw [a1] at ho; cases ho
    | _ => exact ⟨a1, a2, a3⟩) es' s s' ⟨h0, h1, h4⟩ h'
  exact inv.2.1

/-! ## C130: a service that cannot be reached -/

/-- The visitor does not end and is waited for; the service cannot be dialled. -/
def Unreachable : Ev → Prop
  | .vShut | .vClose | .srvTimeout | .cliTake true => False
  | _ => True

structure Lost (s : St) : Prop where
  cp : s.cp = .start
  v : s.vFin = false
  sp : s.sp = .start ∨ s.sp = .reading
  flag : s.flag = .no
  got : s.vGot = []

theorem lost_step {s s' : St} {e : Ev} (w : Shape s) (h : Lost s) (hp : Unreachable e) (hs : step s e = some s') : Lost s' := by
  obtain ⟨c1, c2, c3, c4, c5, c6, c7, c8⟩ := w.cstart h.cp
  have hcl : s.cListed = false := by
    cases hx : s.cListed
    · rfl
    · have := w.clisted.mp hx; rw [h.cp] at this; simp at this
  cases step_cases hs with
  | vShut _ => exact hp.elim
  | vClose _ => exact hp.elim
  | srvTimeout _ => exact hp.elim
  | cliDial p r _ _ => exact hp.elim
  | vSend b _ => exact ⟨h.cp, h.v, h.sp, h.flag, h.got⟩
  | sSend b _ hc => exact absurd h.cp hc
  | sShut _ hc => exact absurd h.cp hc
  | sClose _ hc => exact absurd h.cp hc
  | cliTimeout hr => rw [h.cp] at hr; cases hr
  | srvOpen n _ _ _ => exact ⟨h.cp, h.v, .inr rfl, h.flag, h.got⟩
  | srvRead n _ _ _ _ _ => exact ⟨h.cp, h.v, h.sp, h.flag, h.got⟩
  | srvEnd hr he =>
    rcases he with a | a
    · rw [h.v] at a; exact nomatch a.2
    · exact absurd h.flag a
  | srvTell hr _ => rcases h.sp with a | a <;> rw [a] at hr <;> cases hr
  | srvSilent hr _ => rcases h.sp with a | a <;> rw [a] at hr <;> cases hr
  | srvClose hr => rcases h.sp with a | a <;> rw [a] at hr <;> cases hr
  | srvTake f r _ hd _ => rw [c3] at hd; cases hd
  | srvDrop f r _ hd _ => rw [c3] at hd; cases hd
  | srvShut hh => rw [c4] at hh; cases hh
  | srvWrite f hh _ _ _ => rw [c4] at hh; cases hh
  | srvLose f hh _ _ => rw [c4] at hh; cases hh
  | cliRead n hr _ _ _ _ => rw [h.cp] at hr; cases hr
  | cliEnd hr _ => rw [h.cp] at hr; cases hr
  | cliTell hr _ => rw [h.cp] at hr; cases hr
  | cliSilent hr _ => rw [h.cp] at hr; cases hr
  | cliUnlist hr => rw [h.cp] at hr; cases hr
  | cliClose hr => rw [h.cp] at hr; cases hr
  | cliRefuse p r _ _ => exact ⟨h.cp, h.v, h.sp, h.flag, h.got⟩
  | cliTake ok f r _ _ _ hl => rw [hcl] at hl; cases hl
  | cliDrop ok f r _ _ _ _ => exact ⟨h.cp, h.v, h.sp, h.flag, h.got⟩
  | cliShut hh => rw [c1] at hh; cases hh
  | cliWrite f hh _ _ _ => rw [c1] at hh; cases hh
  | cliLose f hh _ _ => rw [c1] at hh; cases hh

/-- C130, violated for every conversation: when the service cannot be reached, nobody tells the visitor. Whatever it sends and whoever runs when, as long as the server's read
deadline does not pass its connection stays open and nothing is sent to it. -/
theorem unreachable_service_is_not_reported {es : List Ev} {s : St} (hp : ∀ e ∈ es, Unreachable e) (h : Reached es s) :
    s.flag = .no ∧ s.vGot = [] := by
  have := (run_inv' Unreachable (fun s => Shape s ∧ Lost s) (fun _ _ _ c a b => ⟨shape_step a.1 b, lost_step a.1 a.2 c b⟩) es _ _ hp
    ⟨shape_init, ⟨rfl, rfl, .inl rfl, rfl, rfl⟩⟩ h).2
  exact ⟨this.flag, this.got⟩

/-- ... and gt does come to rest so, having read and thrown away the request. -/
theorem unreachable_example (q : Bytes) (hq : q.length ≤ 4084) :
    ∃ es s, (∀ e ∈ es, Unreachable e) ∧ Reached es s ∧ Quiet s ∧ s.vSent = q ∧ s.vIn = [] ∧ Refused s ∧ s.flag = .no := by
  refine ⟨[.vSend q, .srvOpen q.length, .cliTake false],
    { vSent := q, vIn := [], sp := .reading, listed := true, dialled := true }, by simp [Unreachable], ?_, ?_, rfl, rfl, ⟨rfl, rfl⟩, rfl⟩
  · simp [Reached, run, step, hq]
  · exact quiet_of_rest ⟨.inl ⟨rfl, rfl, rfl, rfl⟩, rfl, rfl, rfl, rfl, .inl rfl⟩ rfl

theorem reading_again {es : List Ev} {s s' : St} (h : s.sp ≠ .start ∧ s.sp ≠ .reading) (hr : run s es = some s') :
    s'.sp ≠ .start ∧ s'.sp ≠ .reading :=
  run_inv (fun s => s.sp ≠ .start ∧ s.sp ≠ .reading) (fun u e u' hu hs => by
    cases step_cases hs with
    | srvTimeout hr => exact absurd hr hu.2
    | srvOpen n hr _ _ => exact absurd hr hu.1
    | srvEnd _ _ => simp
    | srvTell _ _ => simp
    | srvSilent _ _ => simp
    | srvClose _ => simp
    | _ => exact hu) es s s' h hr

/-- C130, the part that holds: once the read deadline has passed, or the visitor has given up, nothing is left of it on either side. -/
theorem unreachable_service_ends_by_timeout_partial {es es' : List Ev} {s : St} (h : Reached (es ++ .srvTimeout :: es') s) (hq : Quiet s) :
    SrvDown s ∧ (CliDown s ∨ Refused s) := by
  have hsp : s.sp ≠ .reading := by
    rw [Reached, run_append] at h
    cases hx : run {} es with
    | none => rw [hx] at h; cases h
    | some t =>
      rw [hx] at h
      simp only [run_cons] at h
      cases hs : step t .srvTimeout with
      | none => rw [hs] at h; cases h
      | some t' =>
        rw [hs] at h
        cases step_cases hs with
        | srvTimeout _ => exact (reading_again (by simp) h).2
  rcases (conditions_at_rest h hq).2.2 with a | a | a | a
  · exact absurd a.1 hsp
  · exact ⟨a.1, .inl a.2⟩
  · exact ⟨a.1, .inr a.2⟩
  · exact absurd a.1 hsp

/-! ## C128: examples -/

/-- A request and its answer, and the end: the hypotheses of `whole_answer` are met, with bytes in both directions. -/
theorem conversation_example (q a : Bytes) (hq : q.length ≤ 4084) (ha : 0 < a.length ∧ a.length ≤ 4086) :
    ∃ es s, (∀ e ∈ es, Patient e) ∧ Reached es s ∧ Quiet s ∧ s.sFin = true ∧ s.sGot = q ∧ s.vGot = a ∧ s.vSent = q ∧ SrvDown s ∧ CliDown s := by
  refine ⟨[.vSend q, .srvOpen q.length, .cliTake true, .cliDo, .sSend a, .sShut, .cliRead a.length, .cliEnd, .cliTell, .cliUnlist, .cliClose,
      .srvTake, .srvDo, .srvTake, .srvDo, .srvEnd, .srvTell, .srvClose],
    { vSent := q, vIn := [], sp := .done, flag := .remote, dialled := true, cp := .done, cFlag := .here, sSent := a, sFin := true,
      sGot := q, vGot := a }, by simp [Patient], ?_, ?_, rfl, rfl, rfl, rfl, ⟨rfl, rfl, by simp⟩, ⟨rfl, rfl, by simp⟩⟩
  · simp [Reached, run, step, hq, ha, atEnd, Flag.set, Frame.payload]
  · exact quiet_of_rest ⟨.inr rfl, rfl, rfl, rfl, rfl, .inr (.inr rfl)⟩ rfl

/-- The visitor closes: the service still gets all, and its connection is closed (`whole_request`). -/
theorem closing_visitor_example (q : Bytes) (hq : q.length ≤ 4084) :
    ∃ es s, (∀ e ∈ es, Serving e) ∧ Reached es s ∧ Quiet s ∧ s.vFin = true ∧ s.sGot = q ∧ SrvDown s ∧ CliDown s := by
  refine ⟨[.vSend q, .vClose, .srvOpen q.length, .srvEnd, .srvTell, .srvClose, .cliTake true, .cliDo, .cliTake true, .cliDo,
    .cliEnd, .cliTell, .cliUnlist, .cliClose],
    { vSent := q, vIn := [], vFin := true, vGone := true, sp := .done, flag := .here, dialled := true, cp := .done, cFlag := .remote,
      sGot := q }, by simp [Serving], ?_, ?_, rfl, rfl, ⟨rfl, rfl, by simp⟩, ⟨rfl, rfl, by simp⟩⟩
  · simp [Reached, run, step, hq, atEnd, Flag.set, Frame.payload]
  · exact quiet_of_rest ⟨.inr rfl, rfl, rfl, rfl, rfl, .inr (.inr rfl)⟩ rfl

end Verif.Tunnel.Conversation
