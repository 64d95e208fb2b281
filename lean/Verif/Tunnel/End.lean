import Verif.Tunnel.Props
set_option linter.unusedSimpArgs false
set_option linter.unusedVariables false
/-!
# C51: when a tunnel ends

For every byte stream the other side may send, and every environment.
-/
namespace Verif.Tunnel
open Verif

/-- `inp` is cut into the items `its`, followed by `rest` (client side). -/
inductive CutC (nsvc : Nat) : Bytes → List CItem → Bytes → Prop
  | nil (inp : Bytes) : CutC nsvc inp [] inp
  | cons {inp inp' rest : Bytes} {it : CItem} {its : List CItem} :
      parseC nsvc inp = some (it, inp') → CutC nsvc inp' its rest → CutC nsvc inp (it :: its) rest

/-- The same for the server. -/
inductive CutS : Bytes → List SItem → Bytes → Prop
  | nil (inp : Bytes) : CutS inp [] inp
  | cons {inp inp' rest : Bytes} {it : SItem} {its : List SItem} :
      parseS inp = some (it, inp') → CutS inp' its rest → CutS inp (it :: its) rest

theorem handle_stops (e : Env) (s : CState) (it : CItem) (h : handle e s it = none) :
    it = .error ∨ it = .badService ∨ (it = .close ∧ (s.isClosing = true ∨ s.tasks = [])) ∨
      (it = .ping ∧ s.isClosing = true ∧ s.tasks = []) := by
  cases it with
  | ping =>
    simp only [handle] at h
    split at h
    · rename_i hc
      simp only [Bool.and_eq_true, List.isEmpty_iff] at hc
      exact Or.inr (Or.inr (Or.inr ⟨rfl, hc.1.1, hc.2⟩))
    · simp at h
  | close =>
    simp only [handle] at h
    split at h
    · rename_i hc; exact Or.inr (Or.inr (Or.inl ⟨rfl, Or.inl hc⟩))
    · split at h
      · rename_i hc; exact Or.inr (Or.inr (Or.inl ⟨rfl, Or.inr (by simpa using hc)⟩))
      · simp at h
  | error => exact Or.inl rfl
  | badService => exact Or.inr (Or.inl rfl)
  | ready => simp [handle] at h
  | services => simp [handle] at h
  | info => simp [handle] at h
  | open_ id si p x => simp [handle] at h
  | data id p => simp [handle] at h
  | closeTask id => simp [handle] at h
  | other a b => simp [handle] at h

theorem handle_closing_from (e : Env) (s s' : CState) (it : CItem) (h : handle e s it = some s') (hc : s'.isClosing = true) :
    s.isClosing = true ∨ it = .close := by
  cases it with
  | ping =>
    simp only [handle] at h
    split at h
    · simp at h
    · simp only [Option.some.injEq] at h; subst h; exact Or.inl hc
  | close => exact Or.inr rfl
  | error => simp [handle] at h
  | badService => simp [handle] at h
  | ready => simp only [handle, Option.some.injEq] at h; subst h; exact Or.inl hc
  | services => simp only [handle, Option.some.injEq] at h; subst h; exact Or.inl hc
  | info => simp only [handle, Option.some.injEq] at h; subst h; exact Or.inl hc
  | open_ id si p x =>
    simp only [handle, Option.some.injEq] at h; subst h
    simp only [handleOpen] at hc
    repeat' split at hc
    all_goals exact Or.inl hc
  | data id p =>
    simp only [handle, Option.some.injEq] at h; subst h
    simp only [handleData] at hc
    repeat' split at hc
    all_goals exact Or.inl hc
  | closeTask id =>
    simp only [handle, Option.some.injEq] at h; subst h
    simp only [handleClose] at hc
    repeat' split at hc
    all_goals exact Or.inl hc
  | other a b => simp only [handle, Option.some.injEq] at h; subst h; exact Or.inl hc

theorem end_aux (nsvc : Nat) (es : List Env) (s : CState) (inp : Bytes)
    (h : (runC nsvc es s inp).running = false) :
    ∃ its last, CutC nsvc inp (its ++ [last]) (runC nsvc es s inp).rest ∧ its.length < es.length ∧
      (last = .error ∨ last = .badService ∨
       (last = .close ∧ (s.isClosing = true ∨ .close ∈ its ∨ (runC nsvc es s inp).st.tasks = [])) ∨
       (last = .ping ∧ (s.isClosing = true ∨ .close ∈ its) ∧ (runC nsvc es s inp).st.tasks = [])) := by
  induction es generalizing s inp with
  | nil => simp [runC] at h
  | cons e es ih =>
    simp only [runC] at h ⊢
    cases hp : parseC nsvc inp with
    | none => rw [hp] at h; simp at h
    | some x =>
      obtain ⟨it, rest⟩ := x
      rw [hp] at h
      simp only at h ⊢
      cases hh : handle e (reap e s) it with
      | none =>
        simp only
        refine ⟨[], it, .cons hp (.nil _), by simp, ?_⟩
        rcases handle_stops _ _ _ hh with h1 | h1 | ⟨h1, h2⟩ | ⟨h1, h2, h3⟩
        · exact Or.inl h1
        · exact Or.inr (Or.inl h1)
        · refine Or.inr (Or.inr (Or.inl ⟨h1, ?_⟩))
          rcases h2 with h2 | h2
          · exact Or.inl (by simpa [reap] using h2)
          · exact Or.inr (Or.inr h2)
        · exact Or.inr (Or.inr (Or.inr ⟨h1, Or.inl (by simpa [reap] using h2), h3⟩))
      | some s' =>
        rw [hh] at h
        simp only at h ⊢
        obtain ⟨its, last, hc, hl, hr⟩ := ih s' rest h
        have hcl : s'.isClosing = true → s.isClosing = true ∨ CItem.close ∈ it :: its := by
          intro hx
          rcases handle_closing_from _ _ _ _ hh hx with h1 | h1
          · exact Or.inl (by simpa [reap] using h1)
          · exact Or.inr (by simp [h1])
        refine ⟨it :: its, last, .cons hp hc, by simp only [List.length_cons]; omega, ?_⟩
        rcases hr with h1 | h1 | ⟨h1, h2⟩ | ⟨h1, h2, h3⟩
        · exact Or.inl h1
        · exact Or.inr (Or.inl h1)
        · refine Or.inr (Or.inr (Or.inl ⟨h1, ?_⟩))
          rcases h2 with h2 | h2 | h2
          · rcases hcl h2 with h | h
            · exact Or.inl h
            · exact Or.inr (Or.inl h)
          · exact Or.inr (Or.inl (by simp [h2]))
          · exact Or.inr (Or.inr h2)
        · refine Or.inr (Or.inr (Or.inr ⟨h1, ?_, h3⟩))
          rcases h2 with h2 | h2
          · exact hcl h2
          · exact Or.inr (by simp [h2])

/-- **C51** (client). Whatever bytes the server sends and whatever happens on the local side: the client's
tunnel reader ends only at an error signal, at a frame naming a service it does not have, at a close signal
when a close signal was received before or no connection is open on the tunnel, or at a ping after a close
signal when no connection is open. So a single close signal, however many pings follow it, never cuts an open
connection. (`running = false` is the return of the loop, `st.tasks` the connections open at that moment.) -/
theorem client_tunnel_end (nsvc : Nat) (es : List Env) (inp : Bytes)
    (h : (runC nsvc es .init inp).running = false) :
    ∃ its last, CutC nsvc inp (its ++ [last]) (runC nsvc es .init inp).rest ∧
      (last = .error ∨ last = .badService ∨
       (last = .close ∧ (.close ∈ its ∨ (runC nsvc es .init inp).st.tasks = [])) ∨
       (last = .ping ∧ .close ∈ its ∧ (runC nsvc es .init inp).st.tasks = [])) := by
  obtain ⟨its, last, h1, h2, h3⟩ := end_aux nsvc es .init inp h
  refine ⟨its, last, h1, ?_⟩
  have hi : CState.init.isClosing = false := rfl
  simpa [hi] using h3

/-- A tunnel with an open connection is closed gracefully: close, then 3 pings keep it; once the connection
has ended, the next ping ends the tunnel. -/
example :
    let ok : Env := ⟨[], true, none, true⟩
    let fin : Env := ⟨[1], true, none, true⟩
    let fs : List SFrame := [.open_ 1 0 (ascii "hi"), .close, .ping, .ping, .ping, .ping, .ping]
    (runC 1 [ok, ok, ok, ok, ok, ok] .init (encAll fs)).running = true ∧
    (runC 1 [ok, ok, ok, ok, ok, ok, fin] .init (encAll fs)).running = false := by
  decide +kernel


theorem parseC_unknown (nsvc : Nat) (hn : nsvc < 65536) (id si : Nat) (hid : id < preserved) (hsi : nsvc ≤ si)
    (hsi2 : si < 65536) (tail : Bytes) :
    parseC nsvc (be32 id ++ be16 opServicesData ++ be16 si ++ tail) = some (.badService, tail) := by
  have hid2 : id < 4294967296 := by unfold preserved at hid; omega
  unfold preserved at hid
  simp only [parseC, List.append_assoc, u32?_be32 hid2]
  rw [if_neg (by unfold sigPing; omega), if_neg (by unfold sigClose; omega),
    if_neg (by unfold sigReady; omega), if_neg (by unfold sigServices; omega),
    if_neg (by unfold sigError; omega), if_neg (by unfold sigInfo; omega)]
  simp only [parseTask, u16?_be16 (n := opServicesData) (by decide), if_true, u16?_be16 hsi2]
  rw [if_pos (by rw [Nat.mod_eq_of_lt hn]; exact hsi)]

theorem runC_stop {nsvc : Nat} {e : Env} {es : List Env} {s : CState} {inp tail : Bytes} {it : CItem}
    (hp : parseC nsvc inp = some (it, tail)) (hh : handle e (reap e s) it = none) :
    runC nsvc (e :: es) s inp = ⟨reap e s, tail, false⟩ := by
  simp only [runC, hp, hh]

/-- **C51** (client, unknown service). A frame that opens a connection for a service index the client does not
have ends the tunnel before anything is dialled. -/
theorem unknown_service_ends_tunnel (nsvc : Nat) (hn : nsvc < 65536) (e : Env) (es : List Env) (s : CState)
    (id si : Nat) (hid : id < preserved) (hsi : nsvc ≤ si) (hsi2 : si < 65536) (tail : Bytes) :
    runC nsvc (e :: es) s (be32 id ++ be16 opServicesData ++ be16 si ++ tail) = ⟨reap e s, tail, false⟩ :=
  runC_stop (parseC_unknown nsvc hn id si hid hsi hsi2 tail) rfl

example : (runC 2 [⟨[], true, none, true⟩] .init (SFrame.open_ 7 2 (ascii "x")).enc).running = false := by
  decide +kernel

theorem handleS_stop (dl : Bool) (e : SEnv) (s : SState) (it : SItem) (h : handleS dl e s it = .stop) :
    (it = .close ∧ s.isClosing = true) ∨ (it = .ping ∧ e.pingOk = false) := by
  cases it with
  | ping =>
    simp only [handleS] at h
    split at h
    · simp at h
    · rename_i hp; exact Or.inr ⟨rfl, by simpa using hp⟩
  | close =>
    simp only [handleS] at h
    split at h
    · rename_i hp; exact Or.inl ⟨rfl, hp⟩
    · simp at h
  | services => simp [handleS] at h
  | data id p =>
    simp only [handleS] at h
    repeat' split at h
    all_goals simp at h
  | closeTask id =>
    simp only [handleS] at h
    repeat' split at h
    all_goals simp at h
  | other a b => simp [handleS] at h

theorem handleS_next_closing (dl : Bool) (e : SEnv) (s s' : SState) (it : SItem) (h : handleS dl e s it = .next s')
    (hc : s'.isClosing = true) : s.isClosing = true ∨ it = .close := by
  cases it with
  | ping =>
    simp only [handleS] at h
    split at h
    · simp only [SOut.next.injEq] at h; subst h; exact Or.inl hc
    · simp at h
  | close => exact Or.inr rfl
  | services => simp [handleS] at h
  | data id p =>
    simp only [handleS] at h
    repeat' split at h
    all_goals (try simp at h)
    all_goals (subst h; exact Or.inl hc)
  | closeTask id =>
    simp only [handleS] at h
    repeat' split at h
    all_goals (try simp at h)
    all_goals (subst h; exact Or.inl hc)
  | other a b =>
    simp only [handleS, SOut.next.injEq] at h; subst h; exact Or.inl hc

theorem act_isClosing (s : SState) (l : List Act) : (l.foldl act s).isClosing = s.isClosing := by
  induction l generalizing s with
  | nil => rfl
  | cons a l ih =>
    simp only [List.foldl_cons, ih]
    cases a <;> rfl

theorem endS_aux (dl : Bool) (es : List SEnv) (s : SState) (inp : Bytes) (h : (runS dl es s inp).fin = .stopped) :
    ∃ its last e, CutS inp (its ++ [last]) (runS dl es s inp).rest ∧ es[its.length]? = some e ∧
      ((last = .close ∧ (s.isClosing = true ∨ .close ∈ its)) ∨ (last = .ping ∧ e.pingOk = false)) := by
  induction es generalizing s inp with
  | nil => simp [runS] at h
  | cons e es ih =>
    simp only [runS] at h ⊢
    cases hp : parseS inp with
    | none => rw [hp] at h; simp at h
    | some x =>
      obtain ⟨it, rest⟩ := x
      rw [hp] at h
      simp only at h ⊢
      cases hh : handleS dl e (acts e s) it with
      | next s' =>
        rw [hh] at h
        simp only at h ⊢
        obtain ⟨its, last, e', hc, hl, hr⟩ := ih s' rest h
        refine ⟨it :: its, last, e', .cons hp hc, by simpa using hl, ?_⟩
        rcases hr with ⟨h1, h2⟩ | h1
        · refine Or.inl ⟨h1, ?_⟩
          rcases h2 with h2 | h2
          · rcases handleS_next_closing _ _ _ _ _ hh h2 with h3 | h3
            · exact Or.inl (by rw [← h3]; exact (act_isClosing s e.acts).symm)
            · exact Or.inr (by simp [h3])
          · exact Or.inr (by simp [h2])
        · exact Or.inr h1
      | stop =>
        simp only
        refine ⟨[], it, e, .cons hp (.nil _), by simp, ?_⟩
        rcases handleS_stop _ _ _ _ hh with ⟨h1, h2⟩ | h1
        · exact Or.inl ⟨h1, Or.inl (by rw [← h2]; exact (act_isClosing s e.acts).symm)⟩
        · exact Or.inr h1
      | reload => rw [hh] at h; simp at h
      | panic => rw [hh] at h; simp at h

/-- **C51** (server). Whatever bytes the client sends, the server's tunnel reader ends the tunnel only at a
second close signal or at a ping that can no longer be answered (the tunnel is no longer registered, or the
reply could not be sent); in particular one close signal does not cut the public connections of the tunnel. -/
theorem server_tunnel_end (dl : Bool) (es : List SEnv) (inp : Bytes) (h : (runS dl es .init inp).fin = .stopped) :
    ∃ its last e, CutS inp (its ++ [last]) (runS dl es .init inp).rest ∧ es[its.length]? = some e ∧
      ((last = .close ∧ .close ∈ its) ∨ (last = .ping ∧ e.pingOk = false)) := by
  obtain ⟨its, last, e, h1, h2, h3⟩ := endS_aux dl es .init inp h
  refine ⟨its, last, e, h1, h2, ?_⟩
  have hi : SState.init.isClosing = false := rfl
  simpa [hi] using h3

example : (runS false [⟨[], none, true⟩, ⟨[], none, true⟩] .init (encAllC [.close, .ping])).fin = .running ∧
    (runS false [⟨[], none, true⟩, ⟨[], none, true⟩] .init (encAllC [.close, .close])).fin = .stopped := by
  decide +kernel

end Verif.Tunnel
