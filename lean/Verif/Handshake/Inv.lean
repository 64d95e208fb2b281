import Verif.Handshake.Lemmas
set_option linter.unusedSimpArgs false
namespace Verif.Handshake
open Verif

/-- Invariant of the parser loop after the options `done` were processed. -/
structure Inv (lim : Limits) (id : Bytes) (done : List Opt) (st : PState) : Prop where
  count : st.count = done.length
  countLe : done.length ≤ lim.maxOptions
  si : st.si = (optServices done).length
  desc : Reg.DescribesOpts ⟨st.ids, st.ports⟩ lim.withID id done
  idsNodup : st.ids.keys.Nodup
  portsNodup : st.ports.keys.Nodup
  hosts : lim.hostNumber ≠ 0 → lim.hostNumber < 4294967295 → st.ids.length ≤ lim.hostNumber
  tcps : lim.tcpNumber ≠ 0 → lim.tcpNumber < 65535 → st.ports.length ≤ lim.tcpNumber
  regex : ∀ tls p, Opt.host tls p ∈ done → lim.regex = [] ∨ ∃ r ∈ lim.regex, r p = true

theorem inv_init (lim : Limits) (id : Bytes) : Inv lim id [] .init := by
  constructor <;> simp [PState.init, optServices, Reg.DescribesOpts, AMap.keys]

theorem optServices_append (a b : List Opt) : optServices (a ++ b) = optServices a ++ optServices b := by
  simp [optServices]

theorem optServices_length_le (a : List Opt) : (optServices a).length ≤ a.length := by
  simp [optServices]; exact List.length_filter_le _ _

/-- description after a host service -/
theorem desc_host {withID : Bool} {id : Bytes} {done : List Opt} {st : PState} {o : Opt}
    {p : Bytes} {tls : Bool} (hsi : st.si = (optServices done).length)
    (hd : Reg.DescribesOpts ⟨st.ids, st.ports⟩ withID id done) (hn : o ≠ .next)
    (ho : o.host? withID id = some (p, tls)) (ht : o.tcp? = none) :
    Reg.DescribesOpts ⟨st.ids.set p ⟨st.si, tls⟩, st.ports⟩ withID id (done ++ [o]) := by
  have hS : optServices (done ++ [o]) = optServices done ++ [o] := by
    simp [optServices, hn]
  obtain ⟨hd1, hd2⟩ := hd
  constructor
  · intro q h
    rw [hS]
    simp only [AMap.get_set]
    by_cases hpq : p = q
    · subst hpq
      simp only [if_true, Option.some.injEq]
      constructor
      · rintro rfl
        constructor
        · exact ⟨o, by simp [hsi], ho⟩
        · intro j o' tls' hj hj2
          simp only [hsi] at hj
          rw [List.getElem?_eq_none (by simp; omega)] at hj2
          simp at hj2
      · rintro ⟨⟨o', ho', ho2⟩, hlast⟩
        by_cases hlt : h.serviceIndex < (optServices done).length
        · exact absurd ho (hlast _ o tls hlt (by simp))
        · by_cases he : h.serviceIndex = (optServices done).length
          · rw [he] at ho'
            simp at ho'
            subst ho'
            rw [ho] at ho2
            simp at ho2
            obtain ⟨a, b⟩ := h
            simp_all
          · rw [List.getElem?_eq_none (by simp; omega)] at ho'
            simp at ho'
    · simp only [hpq, if_false]
      rw [hd1]
      constructor
      · rintro ⟨⟨o', ho', ho2⟩, hlast⟩
        have hlt : h.serviceIndex < (optServices done).length := by
          apply Classical.byContradiction; intro hc
          rw [List.getElem?_eq_none (by omega)] at ho'; simp at ho'
        refine ⟨⟨o', by rw [List.getElem?_append_left hlt]; exact ho', ho2⟩, ?_⟩
        intro j o1 tls1 hj hj2
        by_cases hjl : j < (optServices done).length
        · rw [List.getElem?_append_left hjl] at hj2
          exact hlast j o1 tls1 hj hj2
        · by_cases he : j = (optServices done).length
          · subst he; simp at hj2; subst hj2; rw [ho]; simp [hpq]
          · rw [List.getElem?_eq_none (by simp; omega)] at hj2
            simp at hj2
      · rintro ⟨⟨o', ho', ho2⟩, hlast⟩
        by_cases hlt : h.serviceIndex < (optServices done).length
        · rw [List.getElem?_append_left hlt] at ho'
          refine ⟨⟨o', ho', ho2⟩, ?_⟩
          intro j o1 tls1 hj hj2
          have hjl : j < (optServices done).length := by
            apply Classical.byContradiction; intro hc
            rw [List.getElem?_eq_none (by omega)] at hj2; simp at hj2
          exact hlast j o1 tls1 hj (by rw [List.getElem?_append_left hjl]; exact hj2)
        · exfalso
          by_cases he : h.serviceIndex = (optServices done).length
          · rw [he] at ho'; simp at ho'; subst ho'; rw [ho] at ho2; simp [hpq] at ho2
          · rw [List.getElem?_eq_none (by simp; omega)] at ho'
            simp at ho'
  · intro i t
    rw [hS]
    simp only at hd2 ⊢
    rw [hd2]
    constructor
    · rintro ⟨o', ho', ho2⟩
      have hlt : i < (optServices done).length := by
        apply Classical.byContradiction; intro hc
        rw [List.getElem?_eq_none (by omega)] at ho'; simp at ho'
      exact ⟨o', by rw [List.getElem?_append_left hlt]; exact ho', ho2⟩
    · rintro ⟨o', ho', ho2⟩
      by_cases hlt : i < (optServices done).length
      · rw [List.getElem?_append_left hlt] at ho'; exact ⟨o', ho', ho2⟩
      · exfalso
        by_cases he : i = (optServices done).length
        · subst he; simp at ho'; subst ho'; simp [ht] at ho2
        · rw [List.getElem?_eq_none (by simp; omega)] at ho'
          simp at ho'

/-- description after a TCP service -/
theorem desc_tcp {withID : Bool} {id : Bytes} {done : List Opt} {st : PState} {o : Opt}
    {t : TcpOpt} (hsi : st.si = (optServices done).length)
    (hd : Reg.DescribesOpts ⟨st.ids, st.ports⟩ withID id done) (hn : o ≠ .next)
    (ho : o.host? withID id = none) (ht : o.tcp? = some t) :
    Reg.DescribesOpts ⟨st.ids, st.ports.set st.si t⟩ withID id (done ++ [o]) := by
  have hS : optServices (done ++ [o]) = optServices done ++ [o] := by
    simp [optServices, hn]
  obtain ⟨hd1, hd2⟩ := hd
  have key : ∀ (j : Nat) (o' : Opt), (optServices done ++ [o])[j]? = some o' →
      (j < (optServices done).length ∧ (optServices done)[j]? = some o') ∨
      (j = (optServices done).length ∧ o' = o) := by
    intro j o' hj
    by_cases hlt : j < (optServices done).length
    · rw [List.getElem?_append_left hlt] at hj; exact .inl ⟨hlt, hj⟩
    · by_cases he : j = (optServices done).length
      · subst he; simp at hj; exact .inr ⟨rfl, hj.symm⟩
      · rw [List.getElem?_eq_none (by simp; omega)] at hj; simp at hj
  have key2 : ∀ (j : Nat) (o' : Opt), (optServices done)[j]? = some o' →
      (optServices done ++ [o])[j]? = some o' := by
    intro j o' hj
    have hlt : j < (optServices done).length := by
      apply Classical.byContradiction; intro hc
      rw [List.getElem?_eq_none (by omega)] at hj; simp at hj
    rw [List.getElem?_append_left hlt]; exact hj
  constructor
  · intro q h
    rw [hS, hd1]
    constructor
    · rintro ⟨⟨o', ho', ho2⟩, hlast⟩
      refine ⟨⟨o', key2 _ _ ho', ho2⟩, ?_⟩
      intro j o1 tls1 hj hj2
      rcases key _ _ hj2 with ⟨_, h3⟩ | ⟨_, rfl⟩
      · exact hlast j o1 tls1 hj h3
      · simp [ho]
    · rintro ⟨⟨o', ho', ho2⟩, hlast⟩
      rcases key _ _ ho' with ⟨_, h3⟩ | ⟨_, rfl⟩
      · exact ⟨⟨o', h3, ho2⟩, fun j o1 tls1 hj hj2 => hlast j o1 tls1 hj (key2 _ _ hj2)⟩
      · simp [ho] at ho2
  · intro i t'
    rw [hS]
    simp only [AMap.get_set] at hd2 ⊢
    split
    · rename_i he
      constructor
      · intro h; simp at h; subst h; exact ⟨o, by simp [← he, hsi], ht⟩
      · rintro ⟨o', ho', ho2⟩
        rcases key _ _ ho' with ⟨h3, _⟩ | ⟨_, rfl⟩
        · omega
        · rw [ht] at ho2; exact ho2
    · rename_i he
      rw [hd2]
      constructor
      · rintro ⟨o', ho', ho2⟩; exact ⟨o', key2 _ _ ho', ho2⟩
      · rintro ⟨o', ho', ho2⟩
        rcases key _ _ ho' with ⟨_, h3⟩ | ⟨h4, rfl⟩
        · exact ⟨o', h3, ho2⟩
        · omega

theorem desc_next {withID : Bool} {id : Bytes} {done : List Opt} {reg : Reg}
    (hd : Reg.DescribesOpts reg withID id done) :
    Reg.DescribesOpts reg withID id (done ++ [.next]) := by
  have hS : optServices (done ++ [.next]) = optServices done := by
    simp [optServices]
  unfold Reg.DescribesOpts at *
  rw [hS]; exact hd

theorem optServices_snoc {done : List Opt} {o : Opt} (hn : o ≠ .next) :
    (optServices (done ++ [o])).length = (optServices done).length + 1 := by
  simp [optServices, hn]

theorem inv_step {lim : Limits} {id : Bytes} {done : List Opt} {st st' : PState} {o : Opt}
    (hmax : lim.maxOptions < 65535) (hi : Inv lim id done st)
    (h : applyOpt lim id st o = .ok st') : Inv lim id (done ++ [o]) st' := by
  have hcl := hi.countLe
  have hcnt := hi.count
  have hsl := optServices_length_le done
  have hsi := hi.si
  have hinc : inc16 st.count = done.length + 1 := by simp only [inc16]; omega
  have hincsi : inc16 st.si = (optServices done).length + 1 := by simp only [inc16]; omega
  unfold applyOpt at h
  split at h
  · simp at h
  rename_i hcheck
  have hle : done.length + 1 ≤ lim.maxOptions := by omega
  cases o with
  | next =>
    simp at h; subst h
    refine ⟨by simp [hinc], by simpa using hle, ?_, desc_next hi.desc, hi.idsNodup, hi.portsNodup,
      hi.hosts, hi.tcps, ?_⟩
    · simp [optServices] at hsi ⊢; exact hsi
    · intro tls p hm; simp at hm; exact hi.regex tls p hm
  | idHost tls =>
    simp only at h
    split at h
    · simp at h
    rename_i hh
    simp at h; subst h
    refine ⟨by simp [hinc], by simpa using hle, ?_,
      desc_host hsi hi.desc (by simp) (by simp [Opt.host?]) (by simp [Opt.tcp?]),
      AMap.nodup_set hi.idsNodup _ _, hi.portsNodup, ?_, hi.tcps, ?_⟩
    · rw [optServices_snoc (by simp)]; exact hincsi
    · intro h1 h2
      have h3 := hi.hosts h1 h2
      have h4 := AMap.length_set_le st.ids id ⟨st.si, tls⟩
      simp only [h1, ne_eq, not_false_eq_true, true_and, gt_iff_lt, Nat.not_lt] at hh
      simp only
      omega
    · intro tls p hm; simp at hm; exact hi.regex tls p hm
  | tcp r p =>
    simp only at h
    split at h
    · simp at h
    rename_i hh
    simp at h; subst h
    refine ⟨by simp [hinc], by simpa using hle, ?_,
      desc_tcp hsi hi.desc (by simp) (by simp [Opt.host?]) (by simp [Opt.tcp?]; try rfl),
      hi.idsNodup, AMap.nodup_set hi.portsNodup _ _, hi.hosts, ?_, ?_⟩
    · rw [optServices_snoc (by simp)]; exact hincsi
    · intro h1 h2
      have h3 := hi.tcps h1 h2
      have h4 := AMap.length_set_le st.ports st.si ⟨p, r != 0⟩
      simp only [h1, ne_eq, not_false_eq_true, true_and, gt_iff_lt, Nat.not_lt] at hh
      simp only
      omega
    · intro tls p hm; simp at hm; exact hi.regex tls p hm
  | host tls pfx =>
    simp only at h
    split at h
    · simp at h
    rename_i hh
    split at h
    · simp at h
    rename_i hr
    simp at h; subst h
    have hd := desc_host (p := if lim.withID = true then id ++ [0x2D] ++ pfx else pfx)
      hsi hi.desc (o := .host tls pfx) (tls := tls) (by simp)
      (by simp [Opt.host?, dash]) (by simp [Opt.tcp?])
    refine ⟨by simp [hinc], by simpa using hle, ?_, by simpa using hd,
      AMap.nodup_set hi.idsNodup _ _, hi.portsNodup, ?_, hi.tcps, ?_⟩
    · rw [optServices_snoc (by simp)]; exact hincsi
    · intro h1 h2
      have h3 := hi.hosts h1 h2
      have h4 := AMap.length_set_le st.ids (if lim.withID = true then id ++ 0x2D :: pfx else pfx) ⟨st.si, tls⟩
      simp only [h1, ne_eq, not_false_eq_true, true_and, gt_iff_lt, Nat.not_lt] at hh
      simp only
      omega
    · intro tls' p hm
      simp only [List.mem_append, List.mem_singleton] at hm
      rcases hm with hm | hm
      · exact hi.regex tls' p hm
      · simp only [Opt.host.injEq] at hm
        obtain ⟨rfl, rfl⟩ := hm
        by_cases he : lim.regex = []
        · exact .inl he
        · right
          have hpos : lim.regex.length > 0 := List.length_pos_iff.mpr he
          simp only [hpos, true_and, Classical.not_not] at hr
          simpa [List.any_eq_true] using hr

theorem inv_steps {lim : Limits} {id : Bytes} (hmax : lim.maxOptions < 65535) (os : List Opt)
    {done : List Opt} {st st' : PState} (hi : Inv lim id done st)
    (h : applyOpts lim id st os = .ok st') : Inv lim id (done ++ os) st' := by
  induction os generalizing done st with
  | nil => simp [applyOpts] at h; subst h; simpa using hi
  | cons o os ih =>
    simp only [applyOpts] at h
    cases ho : applyOpt lim id st o with
    | error e => rw [ho] at h; simp at h
    | ok st1 =>
      rw [ho] at h
      have := ih (inv_step hmax hi ho) h
      simpa using this

/-- If the budget allows the options, they are accepted. -/
theorem applyOpts_ok {lim : Limits} {id : Bytes} (hmax : lim.maxOptions < 65536) (os : List Opt)
    {st : PState} (hc : st.count + os.length ≤ lim.maxOptions)
    (hh : lim.hostNumber = 0 ∨
      st.ids.length + (os.countP (fun o => (o.host? lim.withID id).isSome)) ≤ lim.hostNumber)
    (ht : lim.tcpNumber = 0 ∨ st.ports.length + (os.countP (fun o => (o.tcp?).isSome)) ≤ lim.tcpNumber)
    (hr : ∀ tls p, Opt.host tls p ∈ os → lim.regex = [] ∨ ∃ r ∈ lim.regex, r p = true) :
    ∃ st', applyOpts lim id st os = .ok st' := by
  induction os generalizing st with
  | nil => exact ⟨st, rfl⟩
  | cons o os ih =>
    simp only [List.length_cons] at hc
    have hnc : ¬ ((st.count + 1) % 65536 > lim.maxOptions) := by omega
    have hi : inc16 st.count = st.count + 1 := by simp only [inc16]; omega
    have hr' : ∀ tls p, Opt.host tls p ∈ os → lim.regex = [] ∨ ∃ r ∈ lim.regex, r p = true :=
      fun tls p hm => hr tls p (by simp [hm])
    have step : ∃ st1, applyOpt lim id st o = .ok st1 ∧ st1.count = st.count + 1 ∧
        st1.ids.length ≤ st.ids.length + (if (o.host? lim.withID id).isSome then 1 else 0) ∧
        st1.ports.length ≤ st.ports.length + (if (o.tcp?).isSome then 1 else 0) := by
      unfold applyOpt
      simp only [hnc, if_false]
      simp only [List.countP_cons] at hh ht
      cases o with
      | next => exact ⟨_, rfl, hi, by simp, by simp⟩
      | idHost tls =>
        simp only [Opt.host?, Option.isSome_some, if_true] at hh
        have h1 : ¬ (lim.hostNumber ≠ 0 ∧ (st.ids.length + 1) % 4294967296 > lim.hostNumber) := by omega
        simp only [h1, if_false]
        exact ⟨_, rfl, hi, by simp only [Opt.host?, Option.isSome_some, if_true]; exact AMap.length_set_le _ _ _, by simp⟩
      | tcp r p =>
        simp only [Opt.tcp?, Option.isSome_some, if_true] at ht
        have h1 : ¬ (lim.tcpNumber ≠ 0 ∧ (st.ports.length + 1) % 65536 > lim.tcpNumber) := by omega
        simp only [h1, if_false]
        exact ⟨_, rfl, hi, by simp, by simp only [Opt.tcp?, Option.isSome_some, if_true]; exact AMap.length_set_le _ _ _⟩
      | host tls p =>
        simp only [Opt.host?, Option.isSome_some, if_true] at hh
        have h1 : ¬ (lim.hostNumber ≠ 0 ∧ (st.ids.length + 1) % 4294967296 > lim.hostNumber) := by omega
        have h2 : ¬ (lim.regex.length > 0 ∧ ¬ (lim.regex.any (fun r => r p)) = true) := by
          rcases hr tls p (by simp) with h | ⟨r, hm, hp⟩
          · simp [h]
          · intro hcontra
            exact hcontra.2 (List.any_eq_true.mpr ⟨r, hm, hp⟩)
        simp only [h1, h2, if_false]
        exact ⟨_, rfl, hi, by simp only [Opt.host?, Option.isSome_some, if_true]; exact AMap.length_set_le _ _ _, by simp⟩
    obtain ⟨st1, h1, h2, h3, h4⟩ := step
    simp only [List.countP_cons] at hh ht
    obtain ⟨st', h'⟩ := ih (st := st1) (by omega) (by omega) (by omega) hr'
    exact ⟨st', by simp [applyOpts, h1, h']⟩

end Verif.Handshake
