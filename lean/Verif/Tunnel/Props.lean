import Verif.Tunnel.Owner
import Verif.Tunnel.ServerLemmas
import Verif.Tunnel.ProcLemmas
set_option linter.unusedSimpArgs false
set_option linter.unusedVariables false
/-!
# Property theorems: tunnel multiplexing (C10, C11, C12, C48)
-/
namespace Verif.Tunnel
open Verif Bufio

/-! ## C10: server to client -/

/-- C10 (no cross-talk, any interleaving, any environment): after the client's loop has read any
sequence of frames, the local connection of every task `i` is what `i`'s own frames make of it — the
frames of all other tasks and the control signals could be deleted from the history without changing
it. The loop reads exactly the frames' bytes. It stops early only at a close signal, or a ping after
one. -/
theorem client_demultiplexes (nsvc : Nat) (hn : nsvc < 65536) (h : List (SFrame × Env))
    (hv : ∀ x ∈ h, x.1.Valid nsvc) (tail : Bytes) :
    ((runC nsvc (h.map (·.2)) .init (encAll (h.map (·.1)) ++ tail)).running = true ∧
      (runC nsvc (h.map (·.2)) .init (encAll (h.map (·.1)) ++ tail)).rest = tail ∧
      ∀ i, view (runC nsvc (h.map (·.2)) .init (encAll (h.map (·.1)) ++ tail)).st i =
        ownRun i none (h.filter (concerns i))) ∨
    ((runC nsvc (h.map (·.2)) .init (encAll (h.map (·.1)) ++ tail)).running = false ∧
      ∃ k x, h[k]? = some x ∧ (x.1 = .close ∨ x.1 = .ping ∧ ∃ y ∈ h.take k, y.1 = .close) ∧
      ∀ i, view (runC nsvc (h.map (·.2)) .init (encAll (h.map (·.1)) ++ tail)).st i =
        if i ∈ x.2.ended then none else ownRun i none ((h.take k).filter (concerns i))) := by
  rcases runC_spec nsvc hn h .init CInv.init hv tail _ rfl with ⟨a, b, _, d⟩ | ⟨a, k, x, hx, hd, hw⟩
  · refine Or.inl ⟨a, b, fun i => ?_⟩
    rw [d i, ← ownRun_filter]; rfl
  · refine Or.inr ⟨a, k, x, hx, ?_, fun i => ?_⟩
    · rcases hd with hd | ⟨hp, hd⟩
      · exact Or.inl hd
      · exact Or.inr ⟨hp, hd.resolve_left (by simp [CState.init])⟩
    · rw [hw i, ← ownRun_filter]; rfl

/-- C10: nothing from another connection — every local connection the client ever dialled (also those
of tasks that ended or were replaced) holds bytes that one single task's own frames sent to the service
it was opened for. -/
theorem every_local_connection_has_one_owner (nsvc : Nat) (hn : nsvc < 65536) (h : List (SFrame × Env))
    (hv : ∀ x ∈ h, x.1.Valid nsvc) (tail : Bytes) :
    ∀ l ∈ (runC nsvc (h.map (·.2)) .init (encAll (h.map (·.1)) ++ tail)).st.locals,
      ∃ i m c, m ≤ h.length ∧
        ownRun i none ((h.take m).filter (concerns i)) = some ⟨l.svc, l.got, c⟩ := by
  intro l hl
  obtain ⟨i, m, c, h1, h2⟩ := run_owner nsvc hn h [] .init CInv.init hv tail
    (fun i => rfl) (by simp [CState.init]) l hl
  refine ⟨i, m, c, by simpa using h1, ?_⟩
  rw [← ownRun_filter]
  simpa using h2

/-- Own events of one whole connection: first frame, data frames, close. -/
theorem ownRun_connection (i si : Nat) (p0 : Bytes) (frs : List SFrame) (hd : ∀ x ∈ frs, DataOf i x)
    (byRemote : Bool) (h : List (SFrame × Env))
    (hf : h.map (·.1) = SFrame.open_ i si p0 :: frs ++ (if byRemote then [] else [.closeTask i]))
    (hx : isXP p0 = false)
    (he : ∀ x ∈ h, x.2.accept = none ∧ x.2.dialOk = true ∧ i ∉ x.2.ended) :
    ownRun i none h = some ⟨si, p0 ++ payloadS frs, !byRemote⟩ := by
  -- data part with an arbitrary start
  have key : ∀ (frs : List SFrame), (∀ x ∈ frs, DataOf i x) → ∀ (h : List (SFrame × Env)) (g : Bytes),
      h.map (·.1) = frs ++ (if byRemote then [] else [.closeTask i]) →
      (∀ x ∈ h, x.2.accept = none ∧ x.2.dialOk = true ∧ i ∉ x.2.ended) →
      ownRun i (some ⟨si, g, false⟩) h = some ⟨si, g ++ payloadS frs, !byRemote⟩ := by
    intro frs
    induction frs with
    | nil =>
      intro _ h g hf he
      cases byRemote
      · simp at hf
        obtain ⟨a, e, hh, ha⟩ : ∃ a e, h = [(a, e)] ∧ a = SFrame.closeTask i := by
          match h, hf with
          | [(a, e)], hf => exact ⟨a, e, rfl, by simpa using hf⟩
        subst hh ha
        have := he (SFrame.closeTask i, e) (by simp)
        simp [ownRun, own, this.2.2, payloadS]
      · simp at hf; subst hf; simp [ownRun, payloadS]
    | cons f frs ih =>
      intro hd h g hf he
      obtain ⟨p, rfl, _, _⟩ := hd f (by simp)
      match h, hf, he with
      | (a, e) :: h', hf, he =>
        simp only [List.map_cons, List.cons_append, List.cons.injEq] at hf
        obtain ⟨rfl, hf⟩ := hf
        have h1 := he (SFrame.data i p, e) (by simp)
        have h2 := ih (fun x hx => hd x (by simp [hx])) h' (g ++ p) hf (fun x hx => he x (by simp [hx]))
        simp only [ownRun, List.foldl_cons] at h2 ⊢
        have : own i (some ⟨si, g, false⟩) (SFrame.data i p) e = some ⟨si, g ++ p, false⟩ := by
          have h11 : e.accept = none := h1.1
          simp [own, h1.2.2, Env.take, h11]
        rw [this, h2]
        simp [payloadS, SFrame.payload]
  match h, hf, he with
  | (a, e) :: h', hf, he =>
    simp only [List.map_cons, List.cons_append, List.cons.injEq] at hf
    obtain ⟨rfl, hf⟩ := hf
    have h1 := he (SFrame.open_ i si p0, e) (by simp)
    have h2 := key frs hd h' p0 hf (fun x hx => he x (by simp [hx]))
    simp only [ownRun, List.foldl_cons] at h2 ⊢
    have : own i none (SFrame.open_ i si p0) e = some ⟨si, p0, false⟩ := by
      have h11 : e.accept = none := h1.1
      have h12 : e.dialOk = true := h1.2.1
      simp [own, hx, h12, Env.take, h11]
    rw [this, h2]

theorem filter_concerns_isOf (i : Nat) (h : List (SFrame × Env)) (he : ∀ x ∈ h, i ∉ x.2.ended) :
    h.filter (concerns i) = h.filter (fun x => x.1.isOf i) := by
  apply List.filter_congr
  intro x hx
  simp [concerns, he x hx]

/-- C10 (delivery): a public connection read by the server through the buffered reader `s` (whatever is
already buffered, whatever segmentation follows) is cut into frames by the server; if those frames
reach the client interleaved in any way with any other frames of the tunnel, the local service chosen
by the service index receives exactly the public connection's bytes, in order, and then the close. -/
theorem public_bytes_reach_the_service (nsvc : Nat) (hn : nsvc < 65536) (i si : Nat) (byRemote : Bool) (s s' : Rd)
    (hcap : s.cap = 4096) (hfit : s.r + s.data.length ≤ s.cap) (herr : s.err = none ∨ s.src = []) (hne : NoErr s.src)
    (frs : List SFrame) (hp : serverProcess i si byRemote s = some (frs, s'))
    (hxp : isXP s.data = false)
    (h : List (SFrame × Env)) (hv : ∀ x ∈ h, x.1.Valid nsvc) (hclose : ∀ x ∈ h, x.1 ≠ .close)
    (hmine : (h.filter (fun x => x.1.isOf i)).map (·.1) = frs)
    (hend : ∀ x ∈ h, i ∉ x.2.ended)
    (hok : ∀ x ∈ h, x.1.isOf i = true → x.2.accept = none ∧ x.2.dialOk = true) (tail : Bytes) :
    (runC nsvc (h.map (·.2)) .init (encAll (h.map (·.1)) ++ tail)).running = true ∧
    (runC nsvc (h.map (·.2)) .init (encAll (h.map (·.1)) ++ tail)).rest = tail ∧
    view (runC nsvc (h.map (·.2)) .init (encAll (h.map (·.1)) ++ tail)).st i =
      some ⟨si, s.data ++ bytesOf s.src, !byRemote⟩ := by
  have hc : Cap s := ⟨by omega, hfit⟩
  obtain ⟨p, fs, s2, h1, h2, h3, h4⟩ := serverProcess_noErr i si byRemote s hc hcap hne herr
  rw [hp] at h1
  simp only [Option.some.injEq, Prod.mk.injEq] at h1
  have hxp' : isXP p = false := by
    rw [h3]; simp only [isXP, List.take_take] at hxp ⊢; exact hxp
  rcases client_demultiplexes nsvc hn h hv tail with ⟨a, b, c⟩ | ⟨_, k, x, hx, hd, _⟩
  · refine ⟨a, b, ?_⟩
    rw [c i, filter_concerns_isOf i h hend]
    rw [ownRun_connection i si p fs h4 byRemote _ (hmine.trans h1.1) hxp' ?_, h2]
    intro x hx
    rw [List.mem_filter] at hx
    exact ⟨(hok x hx.1 hx.2).1, (hok x hx.1 hx.2).2, hend x hx.1⟩
  · exfalso
    have hmem := List.mem_of_getElem? hx
    rcases hd with hd | ⟨_, y, hy, hyc⟩
    · exact hclose x hmem hd
    · exact hclose y (List.mem_of_mem_take hy) hyc

/-- The server cuts every connection completely: whatever the segmentation and whatever error ends it,
the frames carry exactly the bytes read, in frames of at most 4086 bytes. -/
theorem server_frames_carry_the_stream (i si : Nat) (byRemote : Bool) (s : Rd)
    (hcap : s.cap = 4096) (hfit : s.r + s.data.length ≤ s.cap) :
    ∃ p frs s', serverProcess i si byRemote s =
        some (SFrame.open_ i si p :: frs ++ (if byRemote then [] else [.closeTask i]), s') ∧
      s.data ++ bytesOf s.src = p ++ payloadS frs ++ bytesOf s'.src ∧ s'.data = [] ∧
      p.length ≤ 4084 ∧ (∀ x ∈ frs, ∃ q, x = .data i q ∧ 0 < q.length ∧ q.length ≤ 4086) := by
  obtain ⟨p, frs, s', h1, h2, h3, h4, h5⟩ := serverProcess_spec i si byRemote s ⟨by omega, hfit⟩ hcap
  exact ⟨p, frs, s', h1, h2, h3, by rw [h4]; simp; omega, h5⟩

/-- Concrete case: two public connections interleaved, with a ping in between; the environment ends
task 9 at the end. Non-vacuity of the hypotheses above. -/
example :
    let ok : Env := ⟨[], true, none, true⟩
    let h : List (SFrame × Env) :=
      [(.open_ 7 1 (ascii "GET /"), ok), (.open_ 9 0 [], ok), (.ping, ok), (.data 9 (ascii "abc"), ok),
       (.data 7 (ascii " HTTP"), ok), (.data 9 (ascii "de"), ok), (.closeTask 7, ok)]
    let s : Rd := ⟨4096, 0, ascii "GET /", none, none, [(ascii " HTTP", none)]⟩
    serverProcess 7 1 false s = some ((h.filter (fun x => x.1.isOf 7)).map (·.1), ⟨4096, 0, [], none, some 80, []⟩) ∧
    isXP s.data = false ∧
    (runC 2 (h.map (·.2)) .init (encAll (h.map (·.1)))).st.locals =
      [⟨1, ascii "GET / HTTP", true⟩, ⟨0, ascii "abcde", false⟩] := by
  decide +kernel

example : ∀ f ∈ [SFrame.open_ 7 1 (ascii "GET /"), .open_ 9 0 [], .ping, .data 9 (ascii "abc"), .closeTask 7],
    f.Valid 2 := by
  intro f hf
  simp only [List.mem_cons, List.mem_nil_iff, or_false] at hf
  rcases hf with rfl | rfl | rfl | rfl | rfl <;> simp [SFrame.Valid, preserved, ascii]

/-! ## C48: control signals -/

/-- The frames that carry nothing for a proxied connection. -/
def SFrame.isSignal : SFrame → Bool
  | .open_ _ _ _ | .data _ _ | .closeTask _ => false
  | _ => true

/-- C48, for every signal but two: `reconnect` (excluded by `Valid`; the claim is false of it, see
`reconnect_desynchronises`) and `close` (it ends the tunnel). Whatever signals (ping, ready, services, info) the server puts
between the frames, in any number and at any place: every proxied connection receives what it receives when the same
frames are sent without any signal. (`hquiet`: no task ends by itself at the very moment of a signal; such an end is an
event of its own, which would have to be kept.) -/
theorem signals_do_not_disturb_partial (nsvc : Nat) (hn : nsvc < 65536) (h : List (SFrame × Env))
    (hv : ∀ x ∈ h, x.1.Valid nsvc) (hclose : ∀ x ∈ h, x.1 ≠ .close)
    (hquiet : ∀ x ∈ h, x.1.isSignal = true → x.2.ended = []) (tail : Bytes) (i : Nat) :
    (runC nsvc (h.map (·.2)) .init (encAll (h.map (·.1)) ++ tail)).running = true ∧
    (runC nsvc (h.map (·.2)) .init (encAll (h.map (·.1)) ++ tail)).rest = tail ∧
    view (runC nsvc (h.map (·.2)) .init (encAll (h.map (·.1)) ++ tail)).st i =
      view (runC nsvc ((h.filter (fun x => !x.1.isSignal)).map (·.2)) .init
        (encAll ((h.filter (fun x => !x.1.isSignal)).map (·.1)) ++ tail)).st i := by
  have key : ∀ h : List (SFrame × Env), (∀ x ∈ h, x.1.Valid nsvc) → (∀ x ∈ h, x.1 ≠ .close) →
      (runC nsvc (h.map (·.2)) .init (encAll (h.map (·.1)) ++ tail)).running = true ∧
      (runC nsvc (h.map (·.2)) .init (encAll (h.map (·.1)) ++ tail)).rest = tail ∧
      view (runC nsvc (h.map (·.2)) .init (encAll (h.map (·.1)) ++ tail)).st i =
        ownRun i none (h.filter (concerns i)) := by
    intro h hv hclose
    rcases client_demultiplexes nsvc hn h hv tail with ⟨a, b, c⟩ | ⟨_, k, x, hx, hd, _⟩
    · exact ⟨a, b, c i⟩
    · exfalso
      have hmem := List.mem_of_getElem? hx
      rcases hd with hd | ⟨_, y, hy, hyc⟩
      · exact hclose x hmem hd
      · exact hclose y (List.mem_of_mem_take hy) hyc
  obtain ⟨a, b, c⟩ := key h hv hclose
  obtain ⟨_, _, c'⟩ := key (h.filter (fun x => !x.1.isSignal)) (fun x hx => hv x (List.mem_filter.1 hx).1)
    (fun x hx => hclose x (List.mem_filter.1 hx).1)
  refine ⟨a, b, ?_⟩
  rw [c, c', List.filter_filter]
  congr 1
  apply List.filter_congr
  intro x hx
  cases hs : x.1.isSignal with
  | false => simp
  | true =>
    have he := hquiet x hx hs
    have : concerns i x = false := by
      unfold concerns
      rw [he]
      cases hf : x.1 <;> simp [hf, SFrame.isSignal, SFrame.isOf] at hs ⊢
    simp [this]

/-- Non-trivial case of the hypotheses: signals between the frames of a connection. -/
example :
    let ok : Env := ⟨[], true, none, true⟩
    let h : List (SFrame × Env) :=
      [(.ready, ok), (.open_ 7 1 (ascii "GET /"), ok), (.ping, ok), (.info 1 8080, ok), (.data 7 (ascii " HTTP"), ok),
       (.services, ok), (.closeTask 7, ok)]
    (∀ x ∈ h, x.1 ≠ .close) ∧ (∀ x ∈ h, x.1.isSignal = true → x.2.ended = []) ∧
    view (runC 2 (h.map (·.2)) .init (encAll (h.map (·.1)))).st 7 = some ⟨1, ascii "GET / HTTP", true⟩ ∧
    view (runC 2 ((h.filter (fun x => !x.1.isSignal)).map (·.2)) .init
      (encAll ((h.filter (fun x => !x.1.isSignal)).map (·.1)))).st 7 = some ⟨1, ascii "GET / HTTP", true⟩ := by
  decide +kernel

/-! ### Two corner cases of the wire format the statements exclude -/

/-- A `reconnect` signal is not skipped (libcs/client/conn.go:243-248 has no `continue`): its 4 bytes are
taken as a task id and the first bytes of the next frame as an operation, so the stream is cut at the
wrong place: here a 2-byte payload for task 1 is lost and the loop waits for a frame that never ends. -/
theorem reconnect_desynchronises :
    let ok : Env := ⟨[], true, none, true⟩
    let fs : List SFrame := [.open_ 1 0 [], .reconnect, .data 1 [65, 66]]
    let R := runC 1 [ok, ok, ok, ok, ok] .init (encAll fs)
    view R.st 1 = some ⟨0, [], false⟩ ∧ R.rest ≠ [] ∧ R.running = true := by
  decide +kernel

/-- With a first frame of exactly one byte the "XP" test reads into the next frame: the loop does not
open the connection until more bytes arrive, and if that byte is 'X' and the next frame's task id starts
with byte 0x50 it takes the connection for a peer-to-peer request. -/
theorem one_byte_first_frame_waits :
    runC 1 [⟨[], true, none, true⟩] .init (SFrame.open_ 1 0 [88]).enc =
      ⟨.init, (SFrame.open_ 1 0 [88]).enc, true⟩ ∧
    view (runC 1 [⟨[], true, none, true⟩] .init
      ((SFrame.open_ 1 0 [88]).enc ++ (SFrame.data 0x50000001 []).enc)).st 1 = none := by
  decide +kernel

/-! ## C11: client to server -/

/-- C11 (no cross-talk, unknown tasks skipped): for any interleaving of response frames and any
registrations and removals of public connections, what each public connection receives is determined by
its own events alone; frames of unknown tasks leave the stream in sync (`rest = tail`). The loop ends
early only for an unanswered ping, a second close signal, or (C12) an empty data frame of an unknown
task. -/
theorem server_demultiplexes (dl : Bool) (h : List (CFrame × SEnv)) (hv : ∀ x ∈ h, x.1.Valid) (s : SState)
    (hs : ∃ l, s = List.foldl act .init l) (tail : Bytes) :
    ((runS dl (h.map (·.2)) s (encAllC (h.map (·.1)) ++ tail)).fin = .running ∧
      (runS dl (h.map (·.2)) s (encAllC (h.map (·.1)) ++ tail)).rest = tail ∧
      ∀ i, viewS (runS dl (h.map (·.2)) s (encAllC (h.map (·.1)) ++ tail)).st i =
        ownRunS i (viewS s i) (h.filter (concernsS i))) ∨
    (∃ k x, h[k]? = some x ∧
      (∀ i, viewS (runS dl (h.map (·.2)) s (encAllC (h.map (·.1)) ++ tail)).st i =
        x.2.acts.foldl (actOwn i) (ownRunS i (viewS s i) ((h.take k).filter (concernsS i)))) ∧
      (((runS dl (h.map (·.2)) s (encAllC (h.map (·.1)) ++ tail)).fin = .stopped ∧
          ((x.1 = .ping ∧ x.2.pingOk = false) ∨ (x.1 = .close ∧ ∃ y ∈ h.take k, y.1 = .close))) ∨
       ((runS dl (h.map (·.2)) s (encAllC (h.map (·.1)) ++ tail)).fin = .panic ∧ dl = true ∧
          ∃ id, x.1 = .data id []))) := by
  obtain ⟨l, rfl⟩ := hs
  obtain ⟨hi, _⟩ := acts_spec l .init SInv.init
  have hcl : (l.foldl act SState.init).isClosing = false := by
    have := acts_isClosing ⟨l, none, true⟩ .init
    exact this
  rcases runS_spec dl h _ hi hv tail _ rfl with ⟨a, b, d⟩ | ⟨k, x, hx, hw, hd⟩
  · refine Or.inl ⟨a, b, fun i => ?_⟩
    rw [d i, ← ownRunS_filter]
  · refine Or.inr ⟨k, x, hx, fun i => ?_, ?_⟩
    · rw [hw i, ← ownRunS_filter]
    · rcases hd with ⟨hf, hd⟩ | ⟨hf, hdl, id, hid, _⟩
      · refine Or.inl ⟨hf, ?_⟩
        rcases hd with hd | ⟨hp, hd⟩
        · exact Or.inl hd
        · exact Or.inr ⟨hp, hd.resolve_left (by simp [hcl])⟩
      · exact Or.inr ⟨hf, hdl, id, hid⟩

theorem ownRunS_connection (i : Nat) (frs : List CFrame) (hd : ∀ x ∈ frs, CDataOf i x) (byRemote : Bool)
    (h : List (CFrame × SEnv)) (g : Bytes)
    (hf : h.map (·.1) = frs ++ (if byRemote then [] else [.closeTask i]))
    (he : ∀ x ∈ h, x.2.accept = none ∧ x.2.acts.any (Act.isOf i) = false) :
    ownRunS i (some ⟨g, false⟩) h = some ⟨g ++ payloadC frs, !byRemote⟩ := by
  induction frs generalizing h g with
  | nil =>
    cases byRemote
    · simp at hf
      obtain ⟨a, e, hh, ha⟩ : ∃ a e, h = [(a, e)] ∧ a = CFrame.closeTask i := by
        match h, hf with
        | [(a, e)], hf => exact ⟨a, e, rfl, by simpa using hf⟩
      subst hh ha
      have := he (CFrame.closeTask i, e) (by simp)
      simp only [ownRunS, List.foldl_cons, List.foldl_nil, ownS]
      rw [actOwn_irrelevant i _ _ this.2]
      simp [payloadC]
    · simp at hf; subst hf; simp [ownRunS, payloadC]
  | cons f frs ih =>
    obtain ⟨p, rfl, _, _⟩ := hd f (by simp)
    match h, hf, he with
    | (a, e) :: h', hf, he =>
      simp only [List.map_cons, List.cons_append, List.cons.injEq] at hf
      obtain ⟨rfl, hf⟩ := hf
      have h1 := he (CFrame.data i p, e) (by simp)
      have h2 := ih (fun x hx => hd x (by simp [hx])) h' (g ++ p) hf (fun x hx => he x (by simp [hx]))
      simp only [ownRunS, List.foldl_cons] at h2 ⊢
      have : ownS i (some ⟨g, false⟩) (CFrame.data i p) e = some ⟨g ++ p, false⟩ := by
        simp only [ownS]
        rw [actOwn_irrelevant i _ _ h1.2]
        have h11 : e.accept = none := h1.1
        simp [SEnv.take, h11]
      rw [this, h2]
      simp [payloadC, CFrame.payload]

/-- C11 (delivery): the bytes a local service writes, cut into frames by the client and interleaved in
any way with other response frames, reach exactly the public connection registered under the task id,
in order, followed by the close. -/
theorem service_bytes_reach_the_public_connection (dl : Bool) (i : Nat) (byRemote : Bool) (src src' : Script)
    (hne : NoErr src) (frs : List CFrame) (hp : clientProcess i byRemote src = some (frs, src'))
    (s : SState) (hs : ∃ l, s = List.foldl act .init l) (hreg : viewS s i = some ⟨[], false⟩)
    (h : List (CFrame × SEnv)) (hv : ∀ x ∈ h, x.1.Valid) (hclose : ∀ x ∈ h, x.1 ≠ .close)
    (hping : ∀ x ∈ h, x.2.pingOk = true) (hempty : ∀ x ∈ h, ∀ id, x.1 ≠ .data id [])
    (hmine : (h.filter (fun x => x.1.isOf i)).map (·.1) = frs)
    (hstay : ∀ x ∈ h, x.2.acts.any (Act.isOf i) = false)
    (hok : ∀ x ∈ h, x.1.isOf i = true → x.2.accept = none) (tail : Bytes) :
    (runS dl (h.map (·.2)) s (encAllC (h.map (·.1)) ++ tail)).fin = .running ∧
    (runS dl (h.map (·.2)) s (encAllC (h.map (·.1)) ++ tail)).rest = tail ∧
    viewS (runS dl (h.map (·.2)) s (encAllC (h.map (·.1)) ++ tail)).st i =
      some ⟨bytesOf src, !byRemote⟩ := by
  obtain ⟨fs, s2, h1, h2, h4⟩ := clientProcess_noErr i byRemote src hne
  rw [hp] at h1
  simp only [Option.some.injEq, Prod.mk.injEq] at h1
  rcases server_demultiplexes dl h hv s hs tail with ⟨a, b, c⟩ | ⟨k, x, hx, _, hd⟩
  · refine ⟨a, b, ?_⟩
    have hfc : h.filter (concernsS i) = h.filter (fun x => x.1.isOf i) := by
      apply List.filter_congr
      intro x hx
      simp only [concernsS, hstay x hx, Bool.or_false]
    rw [c i, hfc, hreg, ownRunS_connection i fs h4 byRemote _ [] (hmine.trans h1.1) ?_, h2]
    · rfl
    · intro x hx
      rw [List.mem_filter] at hx
      exact ⟨hok x hx.1 hx.2, hstay x hx.1⟩
  · exfalso
    have hmem := List.mem_of_getElem? hx
    rcases hd with ⟨_, hd | ⟨hd, _⟩⟩ | ⟨_, _, id, hid⟩
    · simp [hping x hmem] at hd
    · exact hclose x hmem hd
    · exact hempty x hmem id hid

/-- Concrete case for C11: task 5 unknown, its frame is skipped; 3 receives its bytes. -/
example :
    let ok : SEnv := ⟨[], none, true⟩
    let h : List (CFrame × SEnv) :=
      [(.data 5 (ascii "zz"), ok), (.data 3 (ascii "he"), ok), (.ping, ok), (.data 3 (ascii "llo"), ok),
       (.closeTask 5, ok), (.closeTask 3, ok)]
    let s := List.foldl act .init [.add 3]
    clientProcess 3 false [(ascii "he", none), (ascii "llo", none)] =
      some ((h.filter (fun x => x.1.isOf 3)).map (·.1), []) ∧
    viewS s 3 = some ⟨[], false⟩ ∧
    runS true (h.map (·.2)) s (encAllC (h.map (·.1))) = ⟨⟨[⟨ascii "hello", true⟩], [(3, 0)], false⟩, [], .running⟩ := by
  decide +kernel

/-! ## C12 -/

/-- C12 is violated: with a timeout configured (and `timeoutOnUnidirectionalTraffic` off), an empty data
frame for a task id that does not exist makes the tunnel reader dereference the missing task. -/
theorem empty_orphan_frame_panics :
    (runS true [⟨[], none, true⟩] .init (CFrame.data 5 []).enc).fin = .panic := by
  decide +kernel

theorem parseS_suffix (inp rest : Bytes) (it : SItem) (hparse : parseS inp = some (it, rest)) :
    ∃ u, inp = u ++ rest ∧ ∀ id, it = .data id [] → u = (CFrame.data id []).enc := by
  unfold parseS at hparse
  split at hparse
  · simp at hparse
  · rename_i sig r1 hr1
    have hu1 := u32?_some hr1
    split at hparse
    · simp at hparse; exact ⟨be32 sig, by rw [hu1, hparse.2], by simp [← hparse.1]⟩
    · split at hparse
      · simp at hparse; exact ⟨be32 sig, by rw [hu1, hparse.2], by simp [← hparse.1]⟩
      · split at hparse
        · simp at hparse; exact ⟨be32 sig, by rw [hu1, hparse.2], by simp [← hparse.1]⟩
        · split at hparse
          · simp at hparse
          · rename_i op r2 hr2
            have hu2 := u16?_some hr2
            split at hparse
            · rename_i hop
              split at hparse
              · simp at hparse
              · rename_i l r3 hr3
                have hu3 := u32?_some hr3
                split at hparse
                · simp at hparse
                · rename_i p r4 hr4
                  have hu4 := body?_some hr4
                  simp only [Option.some.injEq, Prod.mk.injEq] at hparse
                  refine ⟨be32 sig ++ be16 op ++ be32 l ++ p, ?_, ?_⟩
                  · rw [hu1, hu2, hu3, hu4.1, hparse.2]; simp only [List.append_assoc]
                  · intro id hid
                    rw [← hparse.1] at hid
                    simp only [SItem.data.injEq] at hid
                    have hl : l = 0 := by rw [← hu4.2, hid.2]; rfl
                    rw [hid.1, hid.2, hop, hl]; rfl
            · split at hparse
              · simp at hparse
                exact ⟨be32 sig ++ be16 op, by rw [hu1, hu2, hparse.2]; simp only [List.append_assoc], by simp [← hparse.1]⟩
              · simp at hparse
                exact ⟨be32 sig ++ be16 op, by rw [hu1, hu2, hparse.2]; simp only [List.append_assoc], by simp [← hparse.1]⟩

/-- C12 (part that holds, for every byte stream): the reader never panics when no deadline is
configured; and whatever the bytes, a panic needs an empty data frame of a task that does not exist.
Missing: the claim for empty frames of unknown tasks with a deadline, where it is false. -/
theorem server_reader_never_panics_partial (dl : Bool) (es : List SEnv) (s : SState) (inp : Bytes)
    (hp : (runS dl es s inp).fin = .panic) :
    dl = true ∧ ∃ pre id, inp = pre ++ (CFrame.data id []).enc ++ (runS dl es s inp).rest ∧
      viewS (runS dl es s inp).st id = none := by
  induction es generalizing s inp with
  | nil => simp [runS] at hp
  | cons e es ih =>
    simp only [runS] at hp ⊢
    cases hparse : parseS inp with
    | none => rw [hparse] at hp; simp at hp
    | some q =>
      obtain ⟨it, rest⟩ := q
      rw [hparse] at hp
      simp only at hp ⊢
      have hsuf := parseS_suffix inp rest it hparse
      cases hh : handleS dl e (acts e s) it with
      | next s' =>
        rw [hh] at hp
        simp only at hp
        obtain ⟨h1, pre, id, h2, h3⟩ := ih s' rest hp
        obtain ⟨u, hu, _⟩ := hsuf
        refine ⟨h1, u ++ pre, id, ?_, h3⟩
        rw [hu]
        simp only [List.append_assoc] at h2 ⊢
        rw [← h2]
      | stop => rw [hh] at hp; simp at hp
      | reload => rw [hh] at hp; simp at hp
      | panic =>
        cases it with
        | ping => simp only [handleS] at hh; split at hh <;> simp at hh
        | close => simp only [handleS] at hh; split at hh <;> simp at hh
        | services => simp [handleS] at hh
        | other a b => simp [handleS] at hh
        | closeTask id => simp only [handleS] at hh; split at hh <;> simp at hh
        | data id p =>
          simp only [handleS] at hh
          split at hh
          · rename_i hn
            split at hh
            · simp at hh
            · rename_i hpl
              split at hh
              · rename_i hdl
                have hp0 : p = [] := List.length_eq_zero_iff.mp (by omega)
                subst hp0
                refine ⟨hdl, [], id, ?_, by simp [viewS, hn]⟩
                obtain ⟨u, hu, hu2⟩ := hsuf
                rw [hu, hu2 id rfl]; simp only [List.nil_append]
              · simp at hh
          · simp at hh

/-- The client's own data frames are never empty, so the reader never panics on what the client's task
goroutines send. -/
theorem honest_tasks_never_panic (dl : Bool) (h : List (CFrame × SEnv)) (hv : ∀ x ∈ h, x.1.Valid)
    (hd : ∀ x ∈ h, (∃ id, CDataOf id x.1) ∨ (∃ id, x.1 = .closeTask id) ∨ x.1 = .ping ∨ x.1 = .close) (tail : Bytes) :
    (runS dl (h.map (·.2)) .init (encAllC (h.map (·.1)) ++ tail)).fin ≠ .panic := by
  intro hp
  rcases server_demultiplexes dl h hv .init ⟨[], rfl⟩ tail with ⟨a, _⟩ | ⟨k, x, hx, _, hd'⟩
  · rw [hp] at a; simp at a
  · rcases hd' with ⟨a, _⟩ | ⟨_, _, id, hid⟩
    · rw [hp] at a; simp at a
    · have hmem := List.mem_of_getElem? hx
      rcases hd x hmem with ⟨i, p, h1, h2, _⟩ | ⟨i, h1⟩ | h1 | h1
      · rw [hid] at h1; simp at h1; rw [h1.2] at h2; simp at h2
      · rw [hid] at h1; simp at h1
      · rw [hid] at h1; simp at h1
      · rw [hid] at h1; simp at h1

/-! ## Findings about task life cycle on the client -/

/-- When dialling the local service fails, the client neither opens a task nor tells the server: the
public connection's later frames are silently dropped. -/
theorem failed_dial_drops_silently (e : Env) (s : CState) (id si : Nat) (p : Bytes) (hd : e.dialOk = false) :
    handleOpen e s id si p false = s := by
  simp [handleOpen, hd]

/-- An old task goroutine that ends after its id was reused deletes the new task's entry
(libcs/client/task.go:258-263): the new connection's later data is dropped. -/
theorem late_end_unregisters_new_task :
    let ok : Env := ⟨[], true, none, true⟩
    let late : Env := ⟨[1], true, none, true⟩
    let h : List (SFrame × Env) :=
      [(.open_ 1 0 [], ok), (.open_ 1 0 (ascii "ab"), ok), (.data 1 (ascii "cd"), late)]
    let R := runC 1 (h.map (·.2)) .init (encAll (h.map (·.1)))
    R.st.locals = [⟨0, [], true⟩, ⟨0, ascii "ab", false⟩] ∧ view R.st 1 = none := by
  decide +kernel

end Verif.Tunnel
