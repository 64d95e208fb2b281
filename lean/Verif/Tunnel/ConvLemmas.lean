import Verif.Tunnel.Conversation
set_option linter.unusedSimpArgs false
set_option linter.unusedVariables false
set_option linter.unusedSectionVars false
/-! Invariants of a conversation (C128-C130). -/
namespace Verif.Tunnel.Conversation

theorem run_cons (s : St) (e : Ev) (es : List Ev) :
    run s (e :: es) = (match step s e with | none => none | some s' => run s' es) := rfl

theorem run_append (a b : List Ev) (s : St) :
    run s (a ++ b) = (match run s a with | none => none | some s' => run s' b) := by
  induction a generalizing s with
  | nil => rfl
  | cons e a ih =>
    simp only [List.cons_append, run_cons]
    cases step s e with
    | none => rfl
    | some s' => exact ih s'

theorem run_inv (P : St → Prop) (hp : ∀ s e s', P s → step s e = some s' → P s') (es : List Ev) (s s' : St)
    (h0 : P s) (h : run s es = some s') : P s' := by
  induction es generalizing s with
  | nil => simp only [run, Option.some.injEq] at h; exact h ▸ h0
  | cons e es ih =>
    rw [run_cons] at h
    cases hs : step s e with
    | none => rw [hs] at h; cases h
    | some s1 => rw [hs] at h; exact ih s1 (hp s e s1 h0 hs) h

/-- The same with a condition on the events. -/
theorem run_inv' (C : Ev → Prop) (P : St → Prop) (hp : ∀ s e s', C e → P s → step s e = some s' → P s') (es : List Ev) (s s' : St)
    (hC : ∀ e ∈ es, C e) (h0 : P s) (h : run s es = some s') : P s' := by
  induction es generalizing s with
  | nil => simp only [run, Option.some.injEq] at h; exact h ▸ h0
  | cons e es ih =>
    rw [run_cons] at h
    cases hs : step s e with
    | none => rw [hs] at h; cases h
    | some s1 =>
      rw [hs] at h
      exact ih s1 (fun x hx => hC x (List.mem_cons_of_mem _ hx)) (hp s e s1 (hC e (List.mem_cons_self ..)) h0 hs) h

def pay (l : List Frame) : Bytes := (l.map Frame.payload).flatten
def hpay : Option Frame → Bytes
  | none => []
  | some f => f.payload

@[simp] theorem pay_nil : pay [] = [] := rfl
@[simp] theorem pay_cons (f : Frame) (l : List Frame) : pay (f :: l) = f.payload ++ pay l := rfl
@[simp] theorem pay_append (a b : List Frame) : pay (a ++ b) = pay a ++ pay b := by simp [pay]
@[simp] theorem hpay_none : hpay none = [] := rfl
@[simp] theorem hpay_some (f : Frame) : hpay (some f) = f.payload := rfl
@[simp] theorem payload_open (p : Bytes) : Frame.payload (.open_ p) = p := rfl
@[simp] theorem payload_data (p : Bytes) : Frame.payload (.data p) = p := rfl
@[simp] theorem payload_close : Frame.payload .close = [] := rfl

def isOpen : Frame → Bool
  | .open_ _ => true
  | _ => false

def noOpen (l : List Frame) : Prop := ∀ f ∈ l, isOpen f = false

/-- The steps, one by one: what is needed for a step and what it does. -/
inductive Step (s : St) : Ev → St → Prop where
  | vSend (b) (h : s.vFin = false) : Step s (.vSend b) { s with vSent := s.vSent ++ b, vIn := s.vIn ++ b }
  | vShut (h : s.vFin = false) : Step s .vShut { s with vFin := true }
  | vClose (h : s.vGone = false) : Step s .vClose { s with vFin := true, vGone := true }
  | sSend (b) (h : s.sFin = false) (hc : s.cp ≠ .start) :
      Step s (.sSend b) { s with sSent := s.sSent ++ b, sIn := s.sIn ++ b }
  | sShut (h : s.sFin = false) (hc : s.cp ≠ .start) : Step s .sShut { s with sFin := true }
  | sClose (h : s.sGone = false) (hc : s.cp ≠ .start) : Step s .sClose { s with sFin := true, sGone := true }
  | srvTimeout (h : s.sp = .reading) : Step s .srvTimeout { s with sp := .ending, listed := false }
  | cliTimeout (h : s.cp = .reading) : Step s .cliTimeout { s with cp := .ending }
  | srvOpen (n) (h : s.sp = .start) (hn : n ≤ s.vIn.length) (hm : n ≤ 4084) :
      Step s (.srvOpen n) { s with sp := .reading, listed := true, up := s.up ++ [.open_ (s.vIn.take n)], vIn := s.vIn.drop n }
  | srvRead (n) (h : s.sp = .reading) (hf : s.flag = .no) (h0 : 0 < n) (hn : n ≤ s.vIn.length) (hm : n ≤ 4086) :
      Step s (.srvRead n) { s with up := s.up ++ [.data (s.vIn.take n)], vIn := s.vIn.drop n }
  | srvEnd (h : s.sp = .reading) (he : (s.vIn = [] ∧ s.vFin = true) ∨ s.flag ≠ .no) :
      Step s .srvEnd { s with sp := .ending, listed := false }
  | srvTell (h : s.sp = .ending) (hf : s.flag ≠ .remote) : Step s .srvTell { s with sp := .closing, up := s.up ++ [.close] }
  | srvSilent (h : s.sp = .ending) (hf : s.flag = .remote) : Step s .srvTell { s with sp := .closing }
  | srvClose (h : s.sp = .closing) : Step s .srvClose { s with sp := .done, flag := s.flag.set .here }
  | srvTake (f r) (h : s.hold = none) (hd : s.dn = f :: r) (hl : s.listed = true) :
      Step s .srvTake { s with dn := r, hold := some f }
  | srvDrop (f r) (h : s.hold = none) (hd : s.dn = f :: r) (hl : s.listed = false) :
      Step s .srvTake { s with dn := r }
  | srvShut (h : s.hold = some .close) : Step s .srvDo { s with hold := none, flag := s.flag.set .remote }
  | srvWrite (f) (h : s.hold = some f) (hc : f ≠ .close) (ho : s.flag = .no) (hg : s.vGone = false) :
      Step s .srvDo { s with hold := none, vGot := s.vGot ++ f.payload }
  | srvLose (f) (h : s.hold = some f) (hc : f ≠ .close) (ho : s.flag ≠ .no ∨ s.vGone = true) :
      Step s .srvDo { s with hold := none }
  | cliRead (n) (h : s.cp = .reading) (hf : s.cFlag = .no) (h0 : 0 < n) (hn : n ≤ s.sIn.length) (hm : n ≤ 4086) :
      Step s (.cliRead n) { s with dn := s.dn ++ [.data (s.sIn.take n)], sIn := s.sIn.drop n }
  | cliEnd (h : s.cp = .reading) (he : (s.sIn = [] ∧ s.sFin = true) ∨ s.cFlag ≠ .no) :
      Step s .cliEnd { s with cp := .ending }
  | cliTell (h : s.cp = .ending) (hf : s.cFlag ≠ .remote) : Step s .cliTell { s with cp := .unlisting, dn := s.dn ++ [.close] }
  | cliSilent (h : s.cp = .ending) (hf : s.cFlag = .remote) : Step s .cliTell { s with cp := .unlisting }
  | cliUnlist (h : s.cp = .unlisting) : Step s .cliUnlist { s with cp := .closing, cListed := false }
  | cliClose (h : s.cp = .closing) : Step s .cliClose { s with cp := .done, cFlag := s.cFlag.set .here }
  | cliDial (p r) (h : s.cHold = none) (hd : s.up = .open_ p :: r) :
      Step s (.cliTake true) { s with up := r, dialled := true, cListed := true, cp := .reading, cHold := some (.data p) }
  | cliRefuse (p r) (h : s.cHold = none) (hd : s.up = .open_ p :: r) :
      Step s (.cliTake false) { s with up := r, dialled := true }
  | cliTake (ok f r) (h : s.cHold = none) (hd : s.up = f :: r) (ho : isOpen f = false) (hl : s.cListed = true) :
      Step s (.cliTake ok) { s with up := r, cHold := some f }
  | cliDrop (ok f r) (h : s.cHold = none) (hd : s.up = f :: r) (ho : isOpen f = false) (hl : s.cListed = false) :
      Step s (.cliTake ok) { s with up := r }
  | cliShut (h : s.cHold = some .close) : Step s .cliDo { s with cHold := none, cFlag := s.cFlag.set .remote }
  | cliWrite (f) (h : s.cHold = some f) (hc : f ≠ .close) (ho : s.cFlag = .no) (hg : s.sGone = false) :
      Step s .cliDo { s with cHold := none, sGot := s.sGot ++ f.payload }
  | cliLose (f) (h : s.cHold = some f) (hc : f ≠ .close) (ho : s.cFlag ≠ .no ∨ s.sGone = true) :
      Step s .cliDo { s with cHold := none }

theorem atEnd_iff (i : Bytes) (f : Bool) (g : Flag) : atEnd i f g = true ↔ ((i = [] ∧ f = true) ∨ g ≠ .no) := by
  simp [atEnd, bne]

theorem step_cases {s s' : St} {e : Ev} (h : step s e = some s') : Step s e s' := by
  cases e with
  | vSend b =>
    simp only [step] at h
    split at h
    · cases h
    · rename_i hv
      injection h with h; subst h
      exact .vSend b (by simpa using hv)
  | vShut =>
    simp only [step] at h
    split at h
    · cases h
    · rename_i hv; injection h with h; subst h; exact .vShut (by simpa using hv)
  | vClose =>
    simp only [step] at h
    split at h
    · cases h
    · rename_i hv; injection h with h; subst h; exact .vClose (by simpa using hv)
  | sSend b =>
    simp only [step] at h
    split at h
    · cases h
    · rename_i hv
      injection h with h; subst h
      simp only [Bool.or_eq_true, beq_iff_eq, not_or, Bool.not_eq_true] at hv
      exact .sSend b hv.1 hv.2
  | sShut =>
    simp only [step] at h
    split at h
    · cases h
    · rename_i hv
      injection h with h; subst h
      simp only [Bool.or_eq_true, beq_iff_eq, not_or, Bool.not_eq_true] at hv
      exact .sShut hv.1 hv.2
  | sClose =>
    simp only [step] at h
    split at h
    · cases h
    · rename_i hv
      injection h with h; subst h
      simp only [Bool.or_eq_true, beq_iff_eq, not_or, Bool.not_eq_true] at hv
      exact .sClose hv.1 hv.2
  | srvTimeout =>
    simp only [step] at h
    split at h
    · rename_i hv; injection h with h; subst h; exact .srvTimeout (by simpa using hv)
    · cases h
  | cliTimeout =>
    simp only [step] at h
    split at h
    · rename_i hv; injection h with h; subst h; exact .cliTimeout (by simpa using hv)
    · cases h
  | srvOpen n =>
    simp only [step] at h
    split at h
    · rename_i hv
      injection h with h; subst h
      simp only [Bool.and_eq_true, beq_iff_eq, decide_eq_true_eq] at hv
      exact .srvOpen n hv.1.1 hv.1.2 hv.2
    · cases h
  | srvRead n =>
    simp only [step] at h
    split at h
    · rename_i hv
      injection h with h; subst h
      simp only [Bool.and_eq_true, beq_iff_eq, decide_eq_true_eq] at hv
      exact .srvRead n hv.1.1.1.1 hv.1.1.1.2 hv.1.1.2 hv.1.2 hv.2
    · cases h
  | srvEnd =>
    simp only [step] at h
    split at h
    · rename_i hv
      injection h with h; subst h
      simp only [Bool.and_eq_true, beq_iff_eq, atEnd_iff] at hv
      exact .srvEnd hv.1 hv.2
    · cases h
  | srvTell =>
    simp only [step] at h
    split at h
    · rename_i hv
      simp only [beq_iff_eq] at hv
      injection h with h; subst h
      by_cases hf : s.flag = .remote
      · rw [if_pos hf]; exact .srvSilent hv hf
      · rw [if_neg hf]; exact .srvTell hv hf
    · cases h
  | srvClose =>
    simp only [step] at h
    split at h
    · rename_i hv; injection h with h; subst h; exact .srvClose (by simpa using hv)
    · cases h
  | srvTake =>
    simp only [step] at h
    split at h
    · rename_i f r h1 h2
      injection h with h; subst h
      by_cases hl : s.listed = true
      · rw [if_pos hl]; exact .srvTake f r h1 h2 hl
      · rw [if_neg hl]
        have := Step.srvDrop f r h1 h2 (by simpa using hl)
        rw [← h1]; exact this
    · cases h
  | srvDo =>
    simp only [step] at h
    split at h
    · rename_i h1; injection h with h; subst h; exact .srvShut h1
    · rename_i f hne h1
      injection h with h; subst h
      have hc : f ≠ .close := fun hx => by
        subst hx; exact hne rfl
      by_cases hc2 : (s.flag == .no && !s.vGone) = true
      · rw [if_pos hc2]
        simp only [Bool.and_eq_true, beq_iff_eq, Bool.not_eq_true'] at hc2
        exact .srvWrite f h1 hc hc2.1 hc2.2
      · rw [if_neg hc2]
        refine .srvLose f h1 hc ?_
        by_cases hf : s.flag = .no
        · right
          cases hv : s.vGone
          · exact absurd (by simp [hf, hv]) hc2
          · rfl
        · exact .inl hf
    · cases h
  | cliRead n =>
    simp only [step] at h
    split at h
    · rename_i hv
      injection h with h; subst h
      simp only [Bool.and_eq_true, beq_iff_eq, decide_eq_true_eq] at hv
      exact .cliRead n hv.1.1.1.1 hv.1.1.1.2 hv.1.1.2 hv.1.2 hv.2
    · cases h
  | cliEnd =>
    simp only [step] at h
    split at h
    · rename_i hv
      injection h with h; subst h
      simp only [Bool.and_eq_true, beq_iff_eq, atEnd_iff] at hv
      exact .cliEnd hv.1 hv.2
    · cases h
  | cliTell =>
    simp only [step] at h
    split at h
    · rename_i hv
      simp only [beq_iff_eq] at hv
      injection h with h; subst h
      by_cases hf : s.cFlag = .remote
      · rw [if_pos hf]; exact .cliSilent hv hf
      · rw [if_neg hf]; exact .cliTell hv hf
    · cases h
  | cliUnlist =>
    simp only [step] at h
    split at h
    · rename_i hv; injection h with h; subst h; exact .cliUnlist (by simpa using hv)
    · cases h
  | cliClose =>
    simp only [step] at h
    split at h
    · rename_i hv; injection h with h; subst h; exact .cliClose (by simpa using hv)
    · cases h
  | cliTake ok =>
    simp only [step] at h
    split at h
    · rename_i p r h1 h2
      split at h
      · rename_i hok; injection h with h; subst h; subst hok; exact .cliDial p r h1 h2
      · rename_i hok
        injection h with h; subst h
        have : ok = false := by simpa using hok
        subst this
        exact .cliRefuse p r h1 h2
    · rename_i f r hne h1 h2
      injection h with h; subst h
      have ho : isOpen f = false := by
        cases f with
        | open_ p => exact absurd rfl (hne p)
        | data p => rfl
        | close => rfl
      by_cases hl : s.cListed = true
      · rw [if_pos hl]; exact .cliTake ok f r h1 h2 ho hl
      · rw [if_neg hl]
        have := Step.cliDrop (s := s) ok f r h1 h2 ho (by simpa using hl)
        rw [← h1]; exact this
    · cases h
  | cliDo =>
    simp only [step] at h
    split at h
    · rename_i h1; injection h with h; subst h; exact .cliShut h1
    · rename_i f hne h1
      injection h with h; subst h
      have hc : f ≠ .close := fun hx => by
        subst hx; exact hne rfl
      by_cases hc2 : (s.cFlag == .no && !s.sGone) = true
      · rw [if_pos hc2]
        simp only [Bool.and_eq_true, beq_iff_eq, Bool.not_eq_true'] at hc2
        exact .cliWrite f h1 hc hc2.1 hc2.2
      · rw [if_neg hc2]
        refine .cliLose f h1 hc ?_
        by_cases hf : s.cFlag = .no
        · right
          cases hv : s.sGone
          · exact absurd (by simp [hf, hv]) hc2
          · rfl
        · exact .inl hf
    · cases h

/-! ## Shape -/

/-- What holds in every state. -/
structure Shape (s : St) : Prop where
  start : s.sp = .start → s.up = [] ∧ s.dialled = false ∧ s.hold = none ∧ s.flag = .no
  listed : s.listed = true ↔ s.sp = .reading
  opening : s.dialled = false → s.sp ≠ .start → ∃ p r, s.up = .open_ p :: r ∧ noOpen r
  opened : s.dialled = true → noOpen s.up
  cold : s.dialled = false → s.cp = .start
  cstart : s.cp = .start → s.cHold = none ∧ s.cFlag = .no ∧ s.dn = [] ∧ s.hold = none ∧ s.sSent = [] ∧ s.sIn = [] ∧
    s.sFin = false ∧ s.sGone = false
  clisted : s.cListed = true ↔ (s.cp = .reading ∨ s.cp = .ending ∨ s.cp = .unlisting)
  noOpenHold : ∀ f, s.hold = some f → isOpen f = false
  noOpenDn : noOpen s.dn
  noOpenCHold : ∀ f, s.cHold = some f → isOpen f = false

theorem noOpen_snoc {l : List Frame} {f : Frame} (h : noOpen l) (hf : isOpen f = false) : noOpen (l ++ [f]) := by
  intro g hg
  rcases List.mem_append.mp hg with h1 | h1
  · exact h g h1
  · rw [List.mem_singleton] at h1; exact h1 ▸ hf

theorem noOpen_tail {l r : List Frame} {f : Frame} (h : noOpen l) (he : l = f :: r) : noOpen r := by
  intro g hg; exact h g (he ▸ List.mem_cons_of_mem _ hg)

theorem noOpen_head {l r : List Frame} {f : Frame} (h : noOpen l) (he : l = f :: r) : isOpen f = false :=
  h f (he ▸ List.mem_cons_self ..)

theorem shape_init : Shape {} := by
  constructor <;> simp [noOpen]

theorem Shape.not_start_dn {s : St} (h : Shape s) {f : Frame} {r : List Frame} (hd : s.dn = f :: r) : s.cp ≠ .start := by
  intro hc; have := (h.cstart hc).2.2.1; rw [hd] at this; cases this

theorem Shape.not_start_up {s : St} (h : Shape s) {f : Frame} {r : List Frame} (hd : s.up = f :: r) : s.sp ≠ .start := by
  intro hc; have := (h.start hc).1; rw [hd] at this; cases this

theorem Shape.dialled_of_cp {s : St} (h : Shape s) (hc : s.cp ≠ .start) : s.dialled = true := by
  cases hd : s.dialled
  · exact absurd (h.cold hd) hc
  · rfl

/-- An opening frame at the head: nothing was dialled. -/
theorem Shape.head_open {s : St} (h : Shape s) {p : Bytes} {r : List Frame} (hd : s.up = .open_ p :: r) :
    s.dialled = false ∧ noOpen r := by
  cases hx : s.dialled
  · refine ⟨rfl, ?_⟩
    obtain ⟨q, t, h1, h2⟩ := h.opening hx (h.not_start_up hd)
    rw [hd] at h1; injection h1 with _ h1; exact h1 ▸ h2
  · have := noOpen_head (h.opened hx) hd
    cases this

/-- Another frame at the head: the opening frame has been handled. -/
theorem Shape.head_other {s : St} (h : Shape s) {f : Frame} {r : List Frame} (hd : s.up = f :: r) (ho : isOpen f = false) :
    s.dialled = true := by
  cases hx : s.dialled
  · obtain ⟨q, t, h1, h2⟩ := h.opening hx (h.not_start_up hd)
    rw [hd] at h1; injection h1 with h1 _; rw [h1] at ho; cases ho
  · rfl

theorem opening_snoc {s : St} (h : Shape s) (f : Frame) (hf : isOpen f = false) :
    s.dialled = false → s.sp ≠ .start → ∃ p r, s.up ++ [f] = .open_ p :: r ∧ noOpen r := by
  intro hd hs
  obtain ⟨p, r, h1, h2⟩ := h.opening hd hs
  exact ⟨p, r ++ [f], by rw [h1]; rfl, noOpen_snoc h2 hf⟩

theorem shape_step {s s' : St} {e : Ev} (h : Shape s) (hs : step s e = some s') : Shape s' := by
  cases step_cases hs with
  | vSend b _ => exact ⟨h.start, h.listed, h.opening, h.opened, h.cold, h.cstart, h.clisted, h.noOpenHold, h.noOpenDn, h.noOpenCHold⟩
  | vShut _ => exact ⟨h.start, h.listed, h.opening, h.opened, h.cold, h.cstart, h.clisted, h.noOpenHold, h.noOpenDn, h.noOpenCHold⟩
  | vClose _ => exact ⟨h.start, h.listed, h.opening, h.opened, h.cold, h.cstart, h.clisted, h.noOpenHold, h.noOpenDn, h.noOpenCHold⟩
  | sSend b _ hc => exact ⟨h.start, h.listed, h.opening, h.opened, h.cold, (fun x => absurd x hc), h.clisted, h.noOpenHold, h.noOpenDn, h.noOpenCHold⟩
  | sShut _ hc => exact ⟨h.start, h.listed, h.opening, h.opened, h.cold, (fun x => absurd x hc), h.clisted, h.noOpenHold, h.noOpenDn, h.noOpenCHold⟩
  | sClose _ hc => exact ⟨h.start, h.listed, h.opening, h.opened, h.cold, (fun x => absurd x hc), h.clisted, h.noOpenHold, h.noOpenDn, h.noOpenCHold⟩
  | srvTimeout hr =>
    exact ⟨(fun x => nomatch x), by simp, (fun hd _ => h.opening hd (by simp [hr])), h.opened, h.cold, h.cstart, h.clisted, h.noOpenHold, h.noOpenDn, h.noOpenCHold⟩
  | cliTimeout hr =>
    exact ⟨h.start, h.listed, h.opening, h.opened, (fun hd => by have := h.cold hd; rw [hr] at this; cases this), (fun x => nomatch x),
      by simpa [hr] using h.clisted, h.noOpenHold, h.noOpenDn, h.noOpenCHold⟩
  | srvOpen n hr hn hm =>
    obtain ⟨h1, h2, h3, h4⟩ := h.start hr
    exact ⟨(fun x => nomatch x), by simp, (fun _ _ => ⟨_, [], by rw [h1]; rfl, (fun g hg => nomatch hg)⟩),
      (fun hd => by rw [h2] at hd; cases hd), h.cold, h.cstart, h.clisted, h.noOpenHold, h.noOpenDn, h.noOpenCHold⟩
  | srvRead n hr hf h0 hn hm =>
    exact ⟨(fun x => by rw [hr] at x; cases x), h.listed, opening_snoc h _ rfl, (fun hd => noOpen_snoc (h.opened hd) rfl), h.cold, h.cstart,
      h.clisted, h.noOpenHold, h.noOpenDn, h.noOpenCHold⟩
  | srvEnd hr he =>
    exact ⟨(fun x => nomatch x), by simp, (fun hd _ => h.opening hd (by simp [hr])), h.opened, h.cold, h.cstart, h.clisted, h.noOpenHold, h.noOpenDn, h.noOpenCHold⟩
  | srvTell hr hf =>
    exact ⟨(fun x => nomatch x), by simpa [hr] using h.listed, (fun hd _ => opening_snoc h _ rfl hd (by simp [hr])),
      (fun hd => noOpen_snoc (h.opened hd) rfl), h.cold, h.cstart, h.clisted, h.noOpenHold, h.noOpenDn, h.noOpenCHold⟩
  | srvSilent hr hf =>
    exact ⟨(fun x => nomatch x), by simpa [hr] using h.listed, (fun hd _ => h.opening hd (by simp [hr])),
      h.opened, h.cold, h.cstart, h.clisted, h.noOpenHold, h.noOpenDn, h.noOpenCHold⟩
  | srvClose hr =>
    exact ⟨(fun x => nomatch x), by simpa [hr] using h.listed, (fun hd _ => h.opening hd (by simp [hr])),
      h.opened, h.cold, h.cstart, h.clisted, h.noOpenHold, h.noOpenDn, h.noOpenCHold⟩
  | srvTake f r hh hd hl =>
    have hc := h.not_start_dn hd
    have hr := h.listed.mp hl
    exact ⟨(fun x => by rw [hr] at x; cases x), h.listed, h.opening, h.opened, h.cold, (fun x => absurd x hc), h.clisted,
      (fun g hg => by injection hg with hg; exact hg ▸ noOpen_head h.noOpenDn hd), noOpen_tail h.noOpenDn hd, h.noOpenCHold⟩
  | srvDrop f r hh hd hl =>
    have hc := h.not_start_dn hd
    exact ⟨h.start, h.listed, h.opening, h.opened, h.cold, (fun x => absurd x hc), h.clisted,
      h.noOpenHold, noOpen_tail h.noOpenDn hd, h.noOpenCHold⟩
  | srvShut hh =>
    exact ⟨(fun x => by have := (h.start x).2.2.1; rw [hh] at this; cases this), h.listed, h.opening, h.opened, h.cold,
      (fun x => by have := (h.cstart x).2.2.2.1; rw [hh] at this; cases this), h.clisted, (fun _ hg => nomatch hg), h.noOpenDn, h.noOpenCHold⟩
  | srvWrite f hh hc ho hg =>
    exact ⟨(fun x => by have := (h.start x).2.2.1; rw [hh] at this; cases this), h.listed, h.opening, h.opened, h.cold,
      (fun x => by have := (h.cstart x).2.2.2.1; rw [hh] at this; cases this), h.clisted, (fun _ hg => nomatch hg), h.noOpenDn, h.noOpenCHold⟩
  | srvLose f hh hc ho =>
    exact ⟨(fun x => by have := (h.start x).2.2.1; rw [hh] at this; cases this), h.listed, h.opening, h.opened, h.cold,
      (fun x => by have := (h.cstart x).2.2.2.1; rw [hh] at this; cases this), h.clisted, (fun _ hg => nomatch hg), h.noOpenDn, h.noOpenCHold⟩
  | cliRead n hr hf h0 hn hm =>
    exact ⟨h.start, h.listed, h.opening, h.opened, h.cold, (fun x => by rw [hr] at x; cases x), h.clisted, h.noOpenHold,
      noOpen_snoc h.noOpenDn rfl, h.noOpenCHold⟩
  | cliEnd hr he =>
    exact ⟨h.start, h.listed, h.opening, h.opened, (fun hd => by have := h.cold hd; rw [hr] at this; cases this), (fun x => nomatch x),
      by simpa [hr] using h.clisted, h.noOpenHold, h.noOpenDn, h.noOpenCHold⟩
  | cliTell hr hf =>
    exact ⟨h.start, h.listed, h.opening, h.opened, (fun hd => by have := h.cold hd; rw [hr] at this; cases this), (fun x => nomatch x),
      by simpa [hr] using h.clisted, h.noOpenHold, noOpen_snoc h.noOpenDn rfl, h.noOpenCHold⟩
  | cliSilent hr hf =>
    exact ⟨h.start, h.listed, h.opening, h.opened, (fun hd => by have := h.cold hd; rw [hr] at this; cases this), (fun x => nomatch x),
      by simpa [hr] using h.clisted, h.noOpenHold, h.noOpenDn, h.noOpenCHold⟩
  | cliUnlist hr =>
    exact ⟨h.start, h.listed, h.opening, h.opened, (fun hd => by have := h.cold hd; rw [hr] at this; cases this), (fun x => nomatch x),
      by simp, h.noOpenHold, h.noOpenDn, h.noOpenCHold⟩
  | cliClose hr =>
    exact ⟨h.start, h.listed, h.opening, h.opened, (fun hd => by have := h.cold hd; rw [hr] at this; cases this), (fun x => nomatch x),
      by simpa [hr] using h.clisted, h.noOpenHold, h.noOpenDn, h.noOpenCHold⟩
  | cliDial p r hh hd =>
    obtain ⟨h1, h2⟩ := h.head_open hd
    exact ⟨(fun x => absurd x (h.not_start_up hd)), h.listed, (fun x => nomatch x), (fun _ => h2), (fun x => nomatch x), (fun x => nomatch x),
      by simp, h.noOpenHold, h.noOpenDn, (fun g hg => by injection hg with hg; subst hg; rfl)⟩
  | cliRefuse p r hh hd =>
    obtain ⟨h1, h2⟩ := h.head_open hd
    exact ⟨(fun x => absurd x (h.not_start_up hd)), h.listed, (fun x => nomatch x), (fun _ => h2), (fun x => nomatch x), h.cstart,
      h.clisted, h.noOpenHold, h.noOpenDn, h.noOpenCHold⟩
  | cliTake ok f r hh hd ho hl =>
    have hx := h.head_other hd ho
    have hc := h.clisted.mp hl
    exact ⟨(fun x => absurd x (h.not_start_up hd)), h.listed, (fun x => by rw [hx] at x; cases x), (fun _ => noOpen_tail (h.opened hx) hd),
      (fun x => by rw [hx] at x; cases x), (fun x => by rw [x] at hc; simp at hc), h.clisted, h.noOpenHold, h.noOpenDn,
      (fun g hg => by injection hg with hg; exact hg ▸ ho)⟩
  | cliDrop ok f r hh hd ho hl =>
    have hx := h.head_other hd ho
    exact ⟨(fun x => absurd x (h.not_start_up hd)), h.listed, (fun x => by rw [hx] at x; cases x), (fun _ => noOpen_tail (h.opened hx) hd),
      h.cold, h.cstart, h.clisted, h.noOpenHold, h.noOpenDn, h.noOpenCHold⟩
  | cliShut hh =>
    exact ⟨h.start, h.listed, h.opening, h.opened, h.cold, (fun x => by have := (h.cstart x).1; rw [hh] at this; cases this), h.clisted,
      h.noOpenHold, h.noOpenDn, (fun _ hg => nomatch hg)⟩
  | cliWrite f hh hc ho hg =>
    exact ⟨h.start, h.listed, h.opening, h.opened, h.cold, (fun x => by have := (h.cstart x).1; rw [hh] at this; cases this), h.clisted,
      h.noOpenHold, h.noOpenDn, (fun _ hg => nomatch hg)⟩
  | cliLose f hh hc ho =>
    exact ⟨h.start, h.listed, h.opening, h.opened, h.cold, (fun x => by have := (h.cstart x).1; rw [hh] at this; cases this), h.clisted,
      h.noOpenHold, h.noOpenDn, (fun _ hg => nomatch hg)⟩

theorem shape_run {es : List Ev} {s : St} (h : Reached es s) : Shape s :=
  run_inv Shape (fun _ _ _ a b => shape_step a b) es _ _ shape_init h

/-! ## What has arrived, what is on its way -/

/-- Visitor to service. -/
structure FlowUp (s : St) : Prop where
  pre : s.sGot <+: s.vSent
  eq : s.cFlag = .no → s.sGone = false → ¬ (s.dialled = true ∧ s.cListed = false ∧ s.cHold = none) →
    s.vSent = s.sGot ++ hpay s.cHold ++ pay s.up ++ s.vIn

/-- Service to visitor. -/
structure FlowDn (s : St) : Prop where
  pre : s.vGot <+: s.sSent
  eq : s.flag = .no → s.vGone = false → ¬ (s.sp ≠ .start ∧ s.listed = false ∧ s.hold = none) →
    s.sSent = s.vGot ++ hpay s.hold ++ pay s.dn ++ s.sIn

theorem Flag.set_ne {f g : Flag} (h : g ≠ .no) : f.set g ≠ .no := by
  cases f <;> simp [Flag.set, h]

theorem flowUp_step {s s' : St} {e : Ev} (w : Shape s) (h : FlowUp s) (hs : step s e = some s') : FlowUp s' := by
  cases step_cases hs with
  | vSend b _ =>
    refine ⟨h.pre.trans (List.prefix_append _ _), fun a b c => ?_⟩
    have := h.eq a b c
    simp only [this, List.append_assoc]
  | sClose _ _ => exact ⟨h.pre, fun _ hx => nomatch hx⟩
  | srvOpen n _ _ _ =>
    refine ⟨h.pre, fun a b c => ?_⟩
    have := h.eq a b c
    simp only [this, pay_append, pay_cons, pay_nil, payload_open, List.append_nil, List.append_assoc, List.take_append_drop]
  | srvRead n _ _ _ _ _ =>
    refine ⟨h.pre, fun a b c => ?_⟩
    have := h.eq a b c
    simp only [this, pay_append, pay_cons, pay_nil, payload_data, List.append_nil, List.append_assoc, List.take_append_drop]
  | srvTell _ _ =>
    refine ⟨h.pre, fun a b c => ?_⟩
    have := h.eq a b c
    simp only [this, pay_append, pay_cons, pay_nil, payload_close, List.append_nil, List.append_assoc]
  | cliUnlist hr =>
    refine ⟨h.pre, fun a b c => h.eq a b (fun ⟨x, y, z⟩ => c ⟨x, rfl, z⟩)⟩
  | cliClose hr => exact ⟨h.pre, fun hx => absurd hx (Flag.set_ne (by simp))⟩
  | cliDial p r hh hd =>
    refine ⟨h.pre, fun a b c => ?_⟩
    have := h.eq a b (fun hx => by rw [(w.head_open hd).1] at hx; exact nomatch hx.1)
    simp only [this, hd, hh, hpay_none, hpay_some, pay_cons, payload_open, payload_data, List.append_nil, List.append_assoc]
  | cliRefuse p r hh hd =>
    refine ⟨h.pre, fun a b c => ?_⟩
    have h1 := w.cold (w.head_open hd).1
    have h2 : s.cListed = false := by
      cases hx : s.cListed
      · rfl
      · have := w.clisted.mp hx; rw [h1] at this; simp at this
    exact absurd ⟨rfl, h2, hh⟩ c
  | cliTake ok f r hh hd ho hl =>
    refine ⟨h.pre, fun a b c => ?_⟩
    have := h.eq a b (fun hx => by rw [hl] at hx; exact nomatch hx.2.1)
    simp only [this, hd, hh, hpay_none, hpay_some, pay_cons, List.append_nil, List.append_assoc]
  | cliDrop ok f r hh hd ho hl =>
    refine ⟨h.pre, fun a b c => absurd ⟨w.head_other hd ho, hl, hh⟩ c⟩
  | cliShut hh => exact ⟨h.pre, fun hx => absurd hx (Flag.set_ne (by simp))⟩
  | cliWrite f hh hc ho hg =>
    have := h.eq ho hg (fun hx => by rw [hh] at hx; exact nomatch hx.2.2)
    rw [hh] at this
    refine ⟨⟨pay s.up ++ s.vIn, by simp only [this, hpay_some, List.append_assoc]⟩, fun a b c => ?_⟩
    simp only [this, hpay_some, hpay_none, List.append_nil]
  | cliLose f hh hc ho =>
    refine ⟨h.pre, fun a b c => ?_⟩
    rcases ho with ho | ho
    · exact absurd a ho
    · rw [ho] at b; cases b
  | _ => exact ⟨h.pre, h.eq⟩

theorem flowDn_step {s s' : St} {e : Ev} (w : Shape s) (h : FlowDn s) (hs : step s e = some s') : FlowDn s' := by
  cases step_cases hs with
  | vClose _ => exact ⟨h.pre, fun _ hx => nomatch hx⟩
  | sSend b _ _ =>
    refine ⟨h.pre.trans (List.prefix_append _ _), fun a b c => ?_⟩
    have := h.eq a b c
    simp only [this, List.append_assoc]
  | srvTimeout hr =>
    exact ⟨h.pre, fun a b c => h.eq a b (fun ⟨_, _, z⟩ => c ⟨by simp, rfl, z⟩)⟩
  | srvOpen n hr hn hm =>
    exact ⟨h.pre, fun a b c => h.eq a b (fun ⟨x, _, _⟩ => x hr)⟩
  | srvEnd hr he =>
    exact ⟨h.pre, fun a b c => h.eq a b (fun ⟨_, _, z⟩ => c ⟨by simp, rfl, z⟩)⟩
  | srvTell hr hf =>
    exact ⟨h.pre, fun a b c => h.eq a b (fun ⟨_, y, z⟩ => c ⟨by simp, y, z⟩)⟩
  | srvSilent hr hf =>
    exact ⟨h.pre, fun a b c => h.eq a b (fun ⟨_, y, z⟩ => c ⟨by simp, y, z⟩)⟩
  | srvClose hr => exact ⟨h.pre, fun hx => absurd hx (Flag.set_ne (by simp))⟩
  | srvTake f r hh hd hl =>
    refine ⟨h.pre, fun a b c => ?_⟩
    have := h.eq a b (fun hx => by rw [hl] at hx; exact nomatch hx.2.1)
    simp only [this, hd, hh, hpay_none, hpay_some, pay_cons, List.append_nil, List.append_assoc]
  | srvDrop f r hh hd hl =>
    refine ⟨h.pre, fun a b c => ?_⟩
    by_cases hx : s.sp = .start
    · have h1 := w.cold (w.start hx).2.1
      exact absurd h1 (w.not_start_dn hd)
    · exact absurd ⟨hx, hl, hh⟩ c
  | srvShut hh => exact ⟨h.pre, fun hx => absurd hx (Flag.set_ne (by simp))⟩
  | srvWrite f hh hc ho hg =>
    have := h.eq ho hg (fun hx => by rw [hh] at hx; exact nomatch hx.2.2)
    rw [hh] at this
    refine ⟨⟨pay s.dn ++ s.sIn, by simp only [this, hpay_some, List.append_assoc]⟩, fun a b c => ?_⟩
    simp only [this, hpay_some, hpay_none, List.append_nil]
  | srvLose f hh hc ho =>
    refine ⟨h.pre, fun a b c => ?_⟩
    rcases ho with ho | ho
    · exact absurd a ho
    · rw [ho] at b; cases b
  | cliRead n _ _ _ _ _ =>
    refine ⟨h.pre, fun a b c => ?_⟩
    have := h.eq a b c
    simp only [this, pay_append, pay_cons, pay_nil, payload_data, List.append_nil, List.append_assoc, List.take_append_drop]
  | cliTell _ _ =>
    refine ⟨h.pre, fun a b c => ?_⟩
    have := h.eq a b c
    simp only [this, pay_append, pay_cons, pay_nil, payload_close, List.append_nil, List.append_assoc]
  | _ => exact ⟨h.pre, h.eq⟩

theorem flows_run {es : List Ev} {s : St} (h : Reached es s) : Shape s ∧ FlowUp s ∧ FlowDn s :=
  run_inv (fun s => Shape s ∧ FlowUp s ∧ FlowDn s)
    (fun _ _ _ a b => ⟨shape_step a.1 b, flowUp_step a.1 a.2.1 b, flowDn_step a.1 a.2.2 b⟩) es _ _
    ⟨shape_init, ⟨by exact List.prefix_refl _, fun _ _ _ => rfl⟩, ⟨by exact List.prefix_refl _, fun _ _ _ => rfl⟩⟩ h

end Verif.Tunnel.Conversation
