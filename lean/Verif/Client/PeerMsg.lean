import Verif.Bufio.Lemmas
/-!
# C42: signalling messages of the peer-to-peer mode

Model of `process` (libcs/client/peer.go:245-339, and the identical loop libcs/client/peerproc.go:230-325) and of
the framing in `response` (libcs/client/peer.go:341-379, libcs/client/peerproc.go:327-368). The reader below the loop (the chunked reader of
C31) is a script of read results: any segmentation, any errors. Handling a message (the WebRTC calls, JSON) is a
parameter `handle` saying whether it succeeds.
-/
set_option linter.unusedSimpArgs false
set_option linter.unusedVariables false
namespace Verif.Client.PeerMsg
open Verif Verif.Bufio

/-- libcs/client/peer.go:239-243. -/
inductive PState where
  | len | body | proc
deriving DecidableEq, Repr

/-- `state`, `dataLen[:n]` (or both bytes once complete), `data[:n]`, `initDone`. -/
structure PT where
  st : PState := .len
  hdr : Bytes := []
  body : Bytes := []
  inited : Bool := false
deriving DecidableEq, Repr

/-- How `process` returns: without error, with a read error (HTTP 400), "dataLen is too long" (HTTP 400), or
because a message could not be handled. -/
inductive Ret where
  | clean | readErr | tooLong | failed
deriving DecidableEq, Repr

/-- `io.ErrUnexpectedEOF` among the errors. -/
def unexpectedEOF : Err := .other 0

/-- One pass of the `for`: go on, or return. The list holds the message handled, if any. -/
inductive Outcome where
  | cont (pt : PT) (src : Script) (out : List Bytes)
  | ret (r : Ret) (pt : PT) (src : Script) (out : List Bytes)

def hdrVal : Bytes → Nat
  | [a, b] => rd16 a b
  | _ => 0

/-- libcs/client/peer.go:303-336, `case processData`. `e` is the error of the read that completed the message. The first
message goes to `initFn`, whose (nil) error replaces `e`. -/
def doProc (handle : Bytes → Bool) (pt : PT) (e : Option Err) (src : Script) : Outcome :=
  if handle pt.body then
    let pt' : PT := { inited := true }
    if pt.inited = false then .cont pt' src [pt.body]
    else match e with
      | none => .cont pt' src [pt.body]
      | some .eof => .ret .clean pt' src [pt.body]
      | some _ => .ret .readErr pt' src [pt.body]
  else .ret .failed { pt with st := .proc, inited := true } src []

/-- libcs/client/peer.go:287-302, `case dataBody`. -/
def doBody (handle : Bytes → Bool) (pt : PT) (src : Script) : Outcome :=
  let (bs, e, src') := srcRead src (hdrVal pt.hdr - pt.body.length)
  let pt := { pt with body := pt.body ++ bs }
  if pt.body.length ≠ hdrVal pt.hdr then
    match e with
    | some _ => .ret .readErr pt src' []
    | none => .cont pt src' []
  else doProc handle { pt with st := .proc } e src'

/-- libcs/client/peer.go:253-276, `case dataLength`. -/
def doLen (handle : Bytes → Bool) (pt : PT) (src : Script) : Outcome :=
  let (bs, e, src') := srcRead src (2 - pt.hdr.length)
  let pt := { pt with hdr := pt.hdr ++ bs }
  if pt.hdr.length ≠ 2 then
    match e with
    | some e => if e = .eof ∨ e = unexpectedEOF then .ret .clean pt src' [] else .ret .readErr pt src' []
    | none => .cont pt src' []
  else if hdrVal pt.hdr > 4096 then .ret .tooLong pt src' []
  else doBody handle { pt with st := .body } src'

/-- libcs/client/peer.go:251-328: one pass. -/
def iter (handle : Bytes → Bool) (pt : PT) (src : Script) : Outcome :=
  match pt.st with
  | .len => doLen handle pt src
  | .body => doBody handle pt src
  | .proc => doProc handle pt none src

/-- libcs/client/peer.go:247-328 `process`, with fuel (`process_total`). -/
def run (handle : Bytes → Bool) : Nat → PT → Script → Option (Ret × PT × Script × List Bytes)
  | 0, _, _ => none
  | f + 1, pt, src =>
    match iter handle pt src with
    | .ret r pt' src' out => some (r, pt', src', out)
    | .cont pt' src' out =>
      match run handle f pt' src' with
      | none => none
      | some (r, pt'', src'', outs) => some (r, pt'', src'', out ++ outs)

def fuel (src : Script) : Nat := 2 * (bytesOf src).length + src.length + 2

/-- `process` on one request body. -/
def process (handle : Bytes → Bool) (pt : PT) (src : Script) : Option (Ret × PT × Script × List Bytes) :=
  run handle (fuel src) pt src

/-- libcs/client/peer.go:341-344: one message written by `response`: header and message are copied into the 4096-byte buffer. -/
def respMsg (m : Bytes) : Bytes := (be16 (m.length % 65536) ++ m).take 4096

/-- libcs/client/peer.go:341-379 `response`: the session description, then the candidates up to the first empty one. -/
def respBytes (sdp : Bytes) (cands : List Bytes) : Bytes :=
  respMsg sdp ++ (cands.takeWhile (fun c => !c.isEmpty)).flatMap respMsg

/-! ## Specification -/

/-- The wire form of a message: two length bytes, then the message. -/
def frame (m : Bytes) : Bytes := be16 m.length ++ m

def frames (ms : List Bytes) : Bytes := ms.flatMap frame

/-! ## Lemmas -/

/-- The bytes taken from the stream for the message being assembled. -/
def held (pt : PT) : Bytes := pt.hdr ++ pt.body

/-- The states `process` leaves behind. -/
structure WF (pt : PT) : Prop where
  len : pt.st = .len → pt.hdr.length ≤ 2 ∧ pt.body = [] ∧ (pt.hdr.length = 2 → hdrVal pt.hdr > 4096)
  body : pt.st = .body → pt.hdr.length = 2 ∧ hdrVal pt.hdr ≤ 4096 ∧ pt.body.length ≤ hdrVal pt.hdr
  proc : pt.st = .proc → pt.hdr.length = 2 ∧ hdrVal pt.hdr ≤ 4096 ∧ pt.body.length = hdrVal pt.hdr

theorem wf_init : WF {} := ⟨fun _ => ⟨by simp, rfl, by simp⟩, (by intro h; cases h), (by intro h; cases h)⟩

theorem be16_rd16 {h : Bytes} (hl : h.length = 2) : be16 (hdrVal h) = h := by
  match h, hl with
  | [a, b], _ =>
    have ha := u8_lt a
    have hb := u8_lt b
    simp only [be16, hdrVal, rd16, List.cons.injEq, and_true]
    constructor
    · apply u8_eq_of_toNat
      rw [u8_ofNat_toNat (by omega)]; omega
    · apply u8_eq_of_toNat
      have : (UInt8.ofNat (a.toNat * 256 + b.toNat)).toNat = (a.toNat * 256 + b.toNat) % 256 := by simp
      rw [this]; omega

theorem frame_of {pt : PT} (hl : pt.hdr.length = 2) (hb : pt.body.length = hdrVal pt.hdr) : frame pt.body = held pt := by
  unfold frame held
  rw [hb, be16_rd16 hl]

/-- What one pass guarantees. `k` counts what the pass consumes. -/
def Good (pt : PT) (src : Script) : Outcome → Prop
  | .cont pt' src' out => WF pt' ∧ held pt ++ bytesOf src = frames out ++ (held pt' ++ bytesOf src') ∧
      (∀ m ∈ out, m.length ≤ 4096)
  | .ret r pt' src' out => WF pt' ∧ held pt ++ bytesOf src = frames out ++ (held pt' ++ bytesOf src') ∧
      (∀ m ∈ out, m.length ≤ 4096)

theorem doProc_good {handle : Bytes → Bool} {pt : PT} {e : Option Err} {src : Script} (hl : pt.hdr.length = 2)
    (hv : hdrVal pt.hdr ≤ 4096) (hb : pt.body.length = hdrVal pt.hdr) : Good pt src (doProc handle pt e src) := by
  have hf := frame_of hl hb
  have hwf : WF { inited := true } := ⟨fun _ => ⟨by simp, rfl, by simp⟩, (by intro h; cases h), (by intro h; cases h)⟩
  have hk : held pt ++ bytesOf src = frames [pt.body] ++ (held { inited := true } ++ bytesOf src) := by
    simp [frames, hf, held]
  have hm : ∀ m ∈ [pt.body], m.length ≤ 4096 := by
    intro m h; simp only [List.mem_singleton] at h; subst h; omega
  unfold doProc
  by_cases hh : handle pt.body = true
  · rw [if_pos hh]
    dsimp only
    by_cases hi : pt.inited = false
    · rw [if_pos hi]; exact ⟨hwf, hk, hm⟩
    · rw [if_neg hi]
      split
      · exact ⟨hwf, hk, hm⟩
      · exact ⟨hwf, hk, hm⟩
      · exact ⟨hwf, hk, hm⟩
  · rw [if_neg hh]
    exact ⟨⟨(by intro h; cases h), (by intro h; cases h), fun _ => ⟨hl, hv, hb⟩⟩, by simp [frames, held], by simp⟩

theorem doBody_good {handle : Bytes → Bool} {pt : PT} {src : Script} (hs : pt.st = .body) (hl : pt.hdr.length = 2)
    (hv : hdrVal pt.hdr ≤ 4096) (hb : pt.body.length ≤ hdrVal pt.hdr) : Good pt src (doBody handle pt src) := by
  obtain ⟨h1, h2⟩ := srcRead_spec src (hdrVal pt.hdr - pt.body.length)
  unfold doBody
  generalize hr : srcRead src (hdrVal pt.hdr - pt.body.length) = p at *
  obtain ⟨bs, e, src'⟩ := p
  dsimp only at h1 h2 ⊢
  have hk : held pt ++ bytesOf src = frames [] ++ (held { pt with body := pt.body ++ bs } ++ bytesOf src') := by
    rw [h1]; simp [frames, held]
  have hwf : WF { pt with body := pt.body ++ bs } :=
    ⟨(by intro h; rw [hs] at h; cases h), fun _ => ⟨hl, hv, by simp only [List.length_append]; omega⟩,
      (by intro h; rw [hs] at h; cases h)⟩
  by_cases hc : (pt.body ++ bs).length ≠ hdrVal pt.hdr
  · rw [if_pos hc]
    cases e with
    | some e => exact ⟨hwf, hk, by simp⟩
    | none => exact ⟨hwf, hk, by simp⟩
  · rw [if_neg hc]
    have := doProc_good (handle := handle) (pt := { pt with st := .proc, body := pt.body ++ bs }) (e := e) (src := src')
      hl hv (by simpa using hc)
    have he : held pt ++ bytesOf src = held { pt with st := .proc, body := pt.body ++ bs } ++ bytesOf src' := by
      rw [h1]; simp [held]
    unfold Good at this ⊢
    rw [he]
    exact this

theorem doLen_good {handle : Bytes → Bool} {pt : PT} {src : Script} (hs : pt.st = .len) (hl : pt.hdr.length ≤ 2)
    (hb : pt.body = []) : Good pt src (doLen handle pt src) := by
  obtain ⟨h1, h2⟩ := srcRead_spec src (2 - pt.hdr.length)
  unfold doLen
  generalize hr : srcRead src (2 - pt.hdr.length) = p at *
  obtain ⟨bs, e, src'⟩ := p
  dsimp only at h1 h2 ⊢
  have hlen : (pt.hdr ++ bs).length ≤ 2 := by simp only [List.length_append]; omega
  have hk : held pt ++ bytesOf src = frames [] ++ (held { pt with hdr := pt.hdr ++ bs } ++ bytesOf src') := by
    rw [h1]; simp [frames, held, hb]
  have hwf : ((pt.hdr ++ bs).length = 2 → hdrVal (pt.hdr ++ bs) > 4096) → WF { pt with hdr := pt.hdr ++ bs } := fun hx =>
    ⟨fun _ => ⟨hlen, hb, hx⟩, (by intro h; rw [hs] at h; cases h), (by intro h; rw [hs] at h; cases h)⟩
  by_cases hc : (pt.hdr ++ bs).length ≠ 2
  · rw [if_pos hc]
    cases e with
    | some e =>
      dsimp only
      split
      · exact ⟨hwf (fun h => absurd h hc), hk, by simp⟩
      · exact ⟨hwf (fun h => absurd h hc), hk, by simp⟩
    | none => exact ⟨hwf (fun h => absurd h hc), hk, by simp⟩
  · rw [if_neg hc]
    by_cases ht : hdrVal (pt.hdr ++ bs) > 4096
    · rw [if_pos ht]; exact ⟨hwf (fun _ => ht), hk, by simp⟩
    · rw [if_neg ht]
      have := doBody_good (handle := handle) (pt := { pt with st := .body, hdr := pt.hdr ++ bs }) (src := src') rfl
        (by simpa using hc) (by show hdrVal (pt.hdr ++ bs) ≤ 4096; omega) (by rw [hb]; simp)
      have he : held pt ++ bytesOf src = held { pt with st := .body, hdr := pt.hdr ++ bs } ++ bytesOf src' := by
        rw [h1]; simp [held, hb]
      unfold Good at this ⊢
      rw [he]
      exact this

theorem iter_good {handle : Bytes → Bool} {pt : PT} {src : Script} (h : WF pt) : Good pt src (iter handle pt src) := by
  unfold iter
  split
  · rename_i hs; exact doLen_good hs (h.len hs).1 (h.len hs).2.1
  · rename_i hs; exact doBody_good hs (h.body hs).1 (h.body hs).2.1 (h.body hs).2.2
  · rename_i hs; exact doProc_good (h.proc hs).1 (h.proc hs).2.1 (h.proc hs).2.2

theorem frames_append (a b : List Bytes) : frames (a ++ b) = frames a ++ frames b := by simp [frames]

theorem run_good {handle : Bytes → Bool} : ∀ (f : Nat) {pt : PT} {src : Script} {r : Ret} {pt' : PT} {src' : Script}
    {outs : List Bytes}, WF pt → run handle f pt src = some (r, pt', src', outs) →
    WF pt' ∧ held pt ++ bytesOf src = frames outs ++ (held pt' ++ bytesOf src') ∧ ∀ m ∈ outs, m.length ≤ 4096 := by
  intro f
  induction f with
  | zero => intro pt src r pt' src' outs _ h; cases h
  | succ f ih =>
    intro pt src r pt' src' outs hwf h
    have hg := iter_good (handle := handle) (src := src) hwf
    unfold run at h
    cases hi : iter handle pt src with
    | ret r0 pt0 src0 out =>
      rw [hi] at h hg
      cases h
      exact hg
    | cont pt0 src0 out =>
      rw [hi] at h hg
      dsimp only at h
      cases hr : run handle f pt0 src0 with
      | none => rw [hr] at h; cases h
      | some q =>
        obtain ⟨r1, pt1, src1, outs1⟩ := q
        rw [hr] at h
        cases h
        obtain ⟨h1, h2, h3⟩ := ih hg.1 hr
        refine ⟨h1, ?_, ?_⟩
        · rw [hg.2.1, h2, frames_append, List.append_assoc]
        · intro m hm
          rcases List.mem_append.1 hm with h | h
          · exact hg.2.2 m h
          · exact h3 m h

/-! ### Termination -/

def weight (pt : PT) : Nat := match pt.st with | .len => 0 | _ => 1

def meas (pt : PT) (src : Script) : Nat := 2 * (bytesOf src).length + src.length + weight pt

/-- A read without error that returns less than asked for uses up an entry of the script; any read uses up an
entry or delivers everything asked for. -/
theorem srcRead_meas (src : Script) (m : Nat) :
    2 * (bytesOf (srcRead src m).2.2).length + (srcRead src m).2.2.length + 2 * (srcRead src m).1.length ≤
      2 * (bytesOf src).length + src.length ∧
    ((srcRead src m).2.1 = none → (srcRead src m).1.length ≠ m →
      2 * (bytesOf (srcRead src m).2.2).length + (srcRead src m).2.2.length <
      2 * (bytesOf src).length + src.length) := by
  cases src with
  | nil => simp [srcRead, bytesOf]
  | cons c rest =>
    obtain ⟨bs, e⟩ := c
    simp only [srcRead]
    split
    · simp only [bytesOf_cons, List.length_append, List.length_cons]
      constructor <;> omega
    · simp only [bytesOf_cons, List.length_append, List.length_cons, List.length_take, List.length_drop]
      constructor <;> omega

def Dec (n : Nat) : Outcome → Prop
  | .cont pt' src' _ => meas pt' src' < n
  | .ret .. => True

theorem doProc_dec {handle : Bytes → Bool} {pt : PT} {e : Option Err} {src : Script} {n : Nat}
    (h : 2 * (bytesOf src).length + src.length < n) : Dec n (doProc handle pt e src) := by
  unfold doProc
  by_cases hh : handle pt.body = true
  · rw [if_pos hh]
    dsimp only
    by_cases hi : pt.inited = false
    · rw [if_pos hi]; simpa [Dec, meas, weight] using h
    · rw [if_neg hi]
      split
      · simpa [Dec, meas, weight] using h
      · trivial
      · trivial
  · rw [if_neg hh]; trivial

theorem doBody_dec {handle : Bytes → Bool} {pt : PT} {src : Script} {n : Nat} (hs : pt.st = .body)
    (hb : pt.body.length ≤ hdrVal pt.hdr) (h : 2 * (bytesOf src).length + src.length < n) : Dec n (doBody handle pt src) := by
  obtain ⟨h1, h2⟩ := srcRead_meas src (hdrVal pt.hdr - pt.body.length)
  unfold doBody
  generalize hr : srcRead src (hdrVal pt.hdr - pt.body.length) = p at *
  obtain ⟨bs, e, src'⟩ := p
  dsimp only at h1 h2 ⊢
  by_cases hc : (pt.body ++ bs).length ≠ hdrVal pt.hdr
  · rw [if_pos hc]
    cases e with
    | some e => trivial
    | none =>
      simp only [Dec, meas, weight, hs]
      have hc' : bs.length ≠ hdrVal pt.hdr - pt.body.length := by
        simp only [List.length_append] at hc; omega
      have := h2 rfl hc'; omega
  · rw [if_neg hc]
    exact doProc_dec (by omega)

theorem doLen_dec {handle : Bytes → Bool} {pt : PT} {src : Script} (hs : pt.st = .len) (hbd : pt.body = [])
    (hl : pt.hdr.length < 2 ∨ (pt.hdr.length = 2 ∧ hdrVal pt.hdr > 4096)) :
    Dec (meas pt src) (doLen handle pt src) := by
  obtain ⟨h1, h2⟩ := srcRead_meas src (2 - pt.hdr.length)
  unfold doLen
  generalize hr : srcRead src (2 - pt.hdr.length) = p at *
  obtain ⟨bs, e, src'⟩ := p
  dsimp only at h1 h2 ⊢
  have hm : meas pt src = 2 * (bytesOf src).length + src.length := by simp [meas, weight, hs]
  by_cases hc : (pt.hdr ++ bs).length ≠ 2
  · rw [if_pos hc]
    cases e with
    | some e => dsimp only; split <;> trivial
    | none =>
      simp only [Dec, meas, weight, hs]
      simp only [List.length_append] at hc
      have := h2 rfl (by omega)
      omega
  · rw [if_neg hc]
    have hle := (srcRead_spec src (2 - pt.hdr.length)).2
    rw [hr] at hle
    dsimp only at hle
    by_cases ht : hdrVal (pt.hdr ++ bs) > 4096
    · rw [if_pos ht]; trivial
    · rw [if_neg ht]
      refine doBody_dec rfl (by rw [hbd]; simp) ?_
      rcases hl with hl | ⟨hl, hv⟩
      · simp only [List.length_append] at hc
        rw [hm]; omega
      · have hb : bs = [] := List.eq_nil_of_length_eq_zero (by omega)
        rw [hb, List.append_nil] at ht
        exact absurd hv ht

theorem iter_dec {handle : Bytes → Bool} {pt : PT} {src : Script} (h : WF pt) :
    Dec (meas pt src) (iter handle pt src) := by
  unfold iter
  split
  · rename_i hs
    obtain ⟨h1, h0, h2⟩ := h.len hs
    refine doLen_dec hs h0 ?_
    rcases Nat.lt_or_ge pt.hdr.length 2 with h3 | h3
    · exact Or.inl h3
    · exact Or.inr ⟨by omega, h2 (by omega)⟩
  · rename_i hs; exact doBody_dec hs (h.body hs).2.2 (by simp [meas, weight, hs])
  · rename_i hs; exact doProc_dec (by simp [meas, weight, hs])

theorem run_total {handle : Bytes → Bool} : ∀ (f : Nat) (pt : PT) (src : Script), WF pt → meas pt src < f →
    ∃ res, run handle f pt src = some res := by
  intro f
  induction f with
  | zero => intro pt src _ h; omega
  | succ f ih =>
    intro pt src hwf hf
    have hg := iter_good (handle := handle) (src := src) hwf
    have hd := iter_dec (handle := handle) (src := src) hwf
    unfold run
    cases hi : iter handle pt src with
    | ret r0 pt0 src0 out => exact ⟨_, rfl⟩
    | cont pt0 src0 out =>
      rw [hi] at hg hd
      simp only [Dec] at hd
      obtain ⟨⟨r, p, s, o⟩, hr⟩ := ih pt0 src0 hg.1 (by omega)
      dsimp only
      rw [hr]
      exact ⟨_, rfl⟩

theorem meas_fuel (pt : PT) (src : Script) : meas pt src < fuel src := by
  unfold meas fuel weight
  split <;> omega

/-! ### Why it returns -/

/-- The message being assembled is not complete. -/
def Incomplete (pt : PT) : Prop :=
  (pt.st = .len ∧ pt.hdr.length < 2) ∨ (pt.st = .body ∧ pt.body.length < hdrVal pt.hdr)

/-- On a script without errors: why `process` returns. -/
def RetWhy (handle : Bytes → Bool) (pt' : PT) (src' : Script) : Ret → Prop
  | .clean => (src' = [] ∧ pt'.st = .len ∧ pt'.hdr.length < 2)
  | .readErr => (src' = [] ∧ pt'.st = .body ∧ pt'.body.length < hdrVal pt'.hdr)
  | .tooLong => pt'.st = .len ∧ pt'.hdr.length = 2 ∧ hdrVal pt'.hdr > 4096
  | .failed => handle pt'.body = false

/-- On a script without errors: why a pass returns, and that the rest stays clean. -/
def CleanRet (handle : Bytes → Bool) : Outcome → Prop
  | .cont _ src' _ => Clean src'
  | .ret r pt' src' _ => RetWhy handle pt' src' r

theorem srcRead_clean' (src : Script) (m : Nat) (hc : Clean src) :
    Clean (srcRead src m).2.2 ∧ (∀ e, (srcRead src m).2.1 = some e → e = .eof ∧ (srcRead src m).2.2 = [] ∧ (srcRead src m).1 = []) := by
  cases src with
  | nil =>
    refine ⟨hc, ?_⟩
    intro e h
    simp only [srcRead, Option.some.injEq] at h
    exact ⟨h.symm, rfl, rfl⟩
  | cons c rest =>
    obtain ⟨bs, e⟩ := c
    have h1 := hc (bs, e) (by simp)
    have h2 : Clean rest := fun c hm => hc c (by simp [hm])
    simp only [srcRead]
    split
    · refine ⟨h2, ?_⟩
      intro e' he
      dsimp only at he h1
      rw [h1.2] at he; cases he
    · rename_i hl
      refine ⟨?_, by intro e' he; cases he⟩
      intro c hcm
      simp only [List.mem_cons] at hcm
      rcases hcm with rfl | hcm
      · refine ⟨?_, h1.2⟩
        intro h0
        have := congrArg List.length h0
        simp at this; omega
      · exact h2 c hcm

theorem doProc_clean {handle : Bytes → Bool} {pt : PT} {e : Option Err} {src : Script} (hc : Clean src)
    (he : ∀ x, e = some x → x = .eof ∧ src = []) : CleanRet handle (doProc handle pt e src) := by
  unfold doProc
  by_cases hh : handle pt.body = true
  · rw [if_pos hh]
    dsimp only
    by_cases hi : pt.inited = false
    · rw [if_pos hi]; exact hc
    · rw [if_neg hi]
      split
      · exact hc
      · obtain ⟨-, h2⟩ := he _ rfl
        exact ⟨h2, rfl, by simp⟩
      · rename_i x hx
        exact absurd (he _ rfl).1 hx
  · rw [if_neg hh]
    simpa [CleanRet, RetWhy] using hh

theorem doBody_clean {handle : Bytes → Bool} {pt : PT} {src : Script} (hs : pt.st = .body)
    (hb : pt.body.length ≤ hdrVal pt.hdr) (hc : Clean src) : CleanRet handle (doBody handle pt src) := by
  obtain ⟨h1, h2⟩ := srcRead_clean' src (hdrVal pt.hdr - pt.body.length) hc
  have h3 := (srcRead_spec src (hdrVal pt.hdr - pt.body.length)).2
  unfold doBody
  generalize hr : srcRead src (hdrVal pt.hdr - pt.body.length) = p at *
  obtain ⟨bs, e, src'⟩ := p
  dsimp only at h1 h2 h3 ⊢
  by_cases hn : (pt.body ++ bs).length ≠ hdrVal pt.hdr
  · rw [if_pos hn]
    cases e with
    | some e =>
      exact ⟨(h2 e rfl).2.1, hs, by simp only [List.length_append] at hn ⊢; omega⟩
    | none => exact h1
  · rw [if_neg hn]
    exact doProc_clean h1 (fun x hx => ⟨(h2 x hx).1, (h2 x hx).2.1⟩)

theorem doLen_clean {handle : Bytes → Bool} {pt : PT} {src : Script} (hs : pt.st = .len) (hb : pt.body = [])
    (hl : pt.hdr.length ≤ 2) (hc : Clean src) : CleanRet handle (doLen handle pt src) := by
  obtain ⟨h1, h2⟩ := srcRead_clean' src (2 - pt.hdr.length) hc
  have h3 := (srcRead_spec src (2 - pt.hdr.length)).2
  unfold doLen
  generalize hr : srcRead src (2 - pt.hdr.length) = p at *
  obtain ⟨bs, e, src'⟩ := p
  dsimp only at h1 h2 h3 ⊢
  by_cases hn : (pt.hdr ++ bs).length ≠ 2
  · rw [if_pos hn]
    cases e with
    | some e =>
      obtain ⟨h4, h5, -⟩ := h2 e rfl
      dsimp only
      rw [if_pos (Or.inl h4)]
      exact ⟨h5, hs, by simp only [List.length_append] at hn ⊢; omega⟩
    | none => exact h1
  · rw [if_neg hn]
    by_cases ht : hdrVal (pt.hdr ++ bs) > 4096
    · rw [if_pos ht]; exact ⟨hs, by simpa using hn, ht⟩
    · rw [if_neg ht]
      exact doBody_clean rfl (by rw [hb]; simp) h1

theorem iter_clean {handle : Bytes → Bool} {pt : PT} {src : Script} (h : WF pt) (hc : Clean src) :
    CleanRet handle (iter handle pt src) := by
  unfold iter
  split
  · rename_i hs; exact doLen_clean hs (h.len hs).2.1 (h.len hs).1 hc
  · rename_i hs; exact doBody_clean hs (h.body hs).2.2 hc
  · exact doProc_clean hc (by intro x hx; cases hx)

theorem run_clean {handle : Bytes → Bool} : ∀ (f : Nat) {pt : PT} {src : Script} {r : Ret} {pt' : PT} {src' : Script}
    {outs : List Bytes}, WF pt → Clean src → run handle f pt src = some (r, pt', src', outs) →
    RetWhy handle pt' src' r := by
  intro f
  induction f with
  | zero => intro pt src r pt' src' outs _ _ h; cases h
  | succ f ih =>
    intro pt src r pt' src' outs hwf hcl h
    have hg := iter_good (handle := handle) (src := src) hwf
    have hcr := iter_clean (handle := handle) hwf hcl
    unfold run at h
    cases hi : iter handle pt src with
    | ret r0 pt0 src0 out =>
      rw [hi] at h hcr
      cases h
      exact hcr
    | cont pt0 src0 out =>
      rw [hi] at h hg hcr
      dsimp only at h
      cases hr : run handle f pt0 src0 with
      | none => rw [hr] at h; cases h
      | some q =>
        obtain ⟨r1, pt1, src1, outs1⟩ := q
        rw [hr] at h
        cases h
        exact ih hg.1 hcr hr

theorem hdrVal_be16 {n : Nat} (h : n < 65536) : hdrVal (be16 n) = n := rd16_be16 h

/-- Two ways to read the same bytes as messages, the second with an incomplete rest, agree. -/
theorem frames_unique : ∀ (ms outs : List Bytes) (rest : Bytes), (∀ m ∈ ms, m.length ≤ 4096) →
    (∀ m ∈ outs, m.length ≤ 4096) → frames ms = frames outs ++ rest →
    ∃ ms', ms = outs ++ ms' ∧ frames ms' = rest := by
  intro ms outs
  induction outs generalizing ms with
  | nil => intro rest _ _ h; exact ⟨ms, rfl, by simpa [frames] using h⟩
  | cons o os ih =>
    intro rest hm ho h
    have hol := ho o List.mem_cons_self
    cases ms with
    | nil => simp [frames, frame, be16] at h
    | cons m ms =>
      have hml := hm m List.mem_cons_self
      have e1 : frames (m :: ms) = be16 m.length ++ (m ++ frames ms) := by simp [frames, frame]
      have e2 : frames (o :: os) ++ rest = be16 o.length ++ (o ++ (frames os ++ rest)) := by simp [frames, frame]
      rw [e1, e2] at h
      obtain ⟨h1, h2⟩ := List.append_inj h (by simp)
      have hlen : m.length = o.length := by
        rw [← hdrVal_be16 (n := m.length) (by omega), h1, hdrVal_be16 (by omega)]
      obtain ⟨h3, h4⟩ := List.append_inj h2 hlen
      obtain ⟨ms', h5, h6⟩ := ih ms rest (fun x hx => hm x (List.mem_cons_of_mem _ hx))
        (fun x hx => ho x (List.mem_cons_of_mem _ hx)) h4
      exact ⟨ms', by rw [h3, h5]; rfl, h6⟩

theorem frames_prefix : ∀ (ms outs : List Bytes) (x y : Bytes), (∀ m ∈ ms, m.length ≤ 4096) →
    (∀ m ∈ outs, m.length ≤ 4096) → frames ms ++ x = frames outs ++ y →
    (∃ ms', ms = outs ++ ms' ∧ frames ms' ++ x = y) ∨ (∃ o os, outs = ms ++ (o :: os) ∧ x = frames (o :: os) ++ y) := by
  intro ms
  induction ms with
  | nil =>
    intro outs x y _ _ h
    cases outs with
    | nil => exact Or.inl ⟨[], rfl, h⟩
    | cons o os => exact Or.inr ⟨o, os, rfl, by simpa [frames] using h⟩
  | cons m ms ih =>
    intro outs x y hm ho h
    have hml := hm m List.mem_cons_self
    cases outs with
    | nil => exact Or.inl ⟨m :: ms, rfl, by simpa [frames] using h⟩
    | cons o os =>
      have hol := ho o List.mem_cons_self
      have e1 : frames (m :: ms) ++ x = be16 m.length ++ (m ++ (frames ms ++ x)) := by simp [frames, frame]
      have e2 : frames (o :: os) ++ y = be16 o.length ++ (o ++ (frames os ++ y)) := by simp [frames, frame]
      rw [e1, e2] at h
      obtain ⟨h1, h2⟩ := List.append_inj h (by simp)
      have hlen : m.length = o.length := by
        rw [← hdrVal_be16 (n := m.length) (by omega), h1, hdrVal_be16 (by omega)]
      obtain ⟨h3, h4⟩ := List.append_inj h2 hlen
      rcases ih os x y (fun z hz => hm z (List.mem_cons_of_mem _ hz)) (fun z hz => ho z (List.mem_cons_of_mem _ hz)) h4 with
        ⟨ms', h5, h6⟩ | ⟨o', os', h5, h6⟩
      · exact Or.inl ⟨ms', by rw [h3, h5]; rfl, h6⟩
      · exact Or.inr ⟨o', os', by rw [h3, h5]; rfl, h6⟩

/-- An unfinished message is not the beginning of a complete one that is all there is. -/
theorem incomplete_rest {pt : PT} {ms : List Bytes} (hms : ∀ m ∈ ms, m.length ≤ 4096) (hwf : WF pt) (hi : Incomplete pt)
    (h : frames ms = held pt) : ms = [] ∧ held pt = [] := by
  cases ms with
  | nil => exact ⟨rfl, by rw [← h]; rfl⟩
  | cons m ms =>
    exfalso
    have hm := hms m List.mem_cons_self
    have e1 : frames (m :: ms) = be16 m.length ++ (m ++ frames ms) := by simp [frames, frame]
    rw [e1] at h
    rcases hi with ⟨hs, hl⟩ | ⟨hs, hl⟩
    · have hb := (hwf.len hs).2.1
      have := congrArg List.length h
      simp [held, hb] at this
      omega
    · have hh := (hwf.body hs).1
      obtain ⟨h1, h2⟩ := List.append_inj (by simpa [held] using h) (by simpa using hh.symm)
      have : hdrVal pt.hdr = m.length := by rw [← h1, hdrVal_be16 (by omega)]
      have h3 := congrArg List.length h2
      simp at h3
      omega

/-! ## Theorems -/

/-- `process` always returns (the reader below ends eventually). -/
theorem process_total (handle : Bytes → Bool) (pt : PT) (src : Script) (h : WF pt) : ∃ res, process handle pt src = some res :=
  run_total _ _ _ h (meas_fuel pt src)

/-- C42, for every segmentation, every read error and every place where a request body ends: the messages handled
are exactly the first messages of the byte stream, in order, each at most 4096 bytes; what follows them was either
kept for the next request (`held`) or not yet read. -/
theorem handled_are_the_messages (handle : Bytes → Bool) (pt pt' : PT) (src src' : Script) (r : Ret) (outs : List Bytes)
    (hwf : WF pt) (h : process handle pt src = some (r, pt', src', outs)) :
    WF pt' ∧ held pt ++ bytesOf src = frames outs ++ (held pt' ++ bytesOf src') ∧ ∀ m ∈ outs, m.length ≤ 4096 :=
  run_good _ hwf h

/-- C42: a request body that carries whole messages of at most 4096 bytes, cut in any way, is reassembled exactly:
all the messages are handled, in order, and the request succeeds. -/
theorem messages_reassembled (handle : Bytes → Bool) (hh : ∀ m, handle m = true) (ms : List Bytes)
    (hms : ∀ m ∈ ms, m.length ≤ 4096) (src : Script) (hc : Clean src) (hb : bytesOf src = frames ms) (i : Bool) :
    ∃ pt', process handle { inited := i } src = some (.clean, pt', [], ms) ∧ held pt' = [] := by
  have hwf : WF { inited := i } := ⟨fun _ => ⟨by simp, rfl, by simp⟩, (by intro h; cases h), (by intro h; cases h)⟩
  obtain ⟨⟨r, pt', src', outs⟩, hp⟩ := process_total handle { inited := i } src hwf
  obtain ⟨h1, h2, h3⟩ := handled_are_the_messages handle _ _ _ _ _ _ hwf hp
  have h4 := run_clean _ hwf hc hp
  have h2' : frames ms = frames outs ++ (held pt' ++ bytesOf src') := by
    rw [← hb]; simpa [held] using h2
  obtain ⟨ms', h5, h6⟩ := frames_unique ms outs _ hms h3 h2'
  have hms' : ∀ m ∈ ms', m.length ≤ 4096 := fun m hm => hms m (by rw [h5]; simp [hm])
  cases r with
  | clean =>
    obtain ⟨h7, h8, h9⟩ := h4
    subst h7
    obtain ⟨h10, h11⟩ := incomplete_rest hms' h1 (Or.inl ⟨h8, h9⟩) (by simpa [bytesOf] using h6)
    exact ⟨pt', by rw [hp, h5, h10, List.append_nil], h11⟩
  | readErr =>
    obtain ⟨h7, hs, hl⟩ := h4
    subst h7
    obtain ⟨h10, h11⟩ := incomplete_rest hms' h1 (Or.inr ⟨hs, hl⟩) (by simpa [bytesOf] using h6)
    exfalso
    have hh2 := (h1.body hs).1
    unfold held at h11
    have := congrArg List.length h11
    simp only [List.length_append, List.length_nil] at this; omega
  | tooLong =>
    exfalso
    obtain ⟨h70, h7, h8⟩ := h4
    cases ms' with
    | nil =>
      have := congrArg List.length h6
      simp [frames, held] at this
      omega
    | cons m ms' =>
      have hm := hms' m List.mem_cons_self
      have e1 : frames (m :: ms') = be16 m.length ++ (m ++ frames ms') := by simp [frames, frame]
      rw [e1] at h6
      have : be16 m.length = pt'.hdr := (List.append_inj (by simpa [held] using h6) (by simpa using h7.symm)).1
      rw [← this, hdrVal_be16 (by omega)] at h8
      omega
  | failed =>
    exfalso
    have h7 : handle pt'.body = false := h4
    rw [hh] at h7
    cases h7

/-- C42: a message announced with more than 4096 bytes is never handled. On a stream that starts with such a header
(and has no read errors) the request is refused and nothing after the announcement is handled. -/
theorem oversize_refused (handle : Bytes → Bool) (hh : ∀ m, handle m = true) (ms : List Bytes)
    (hms : ∀ m ∈ ms, m.length ≤ 4096) (n : Nat) (hn : 4096 < n) (hn' : n < 65536) (rest : Bytes)
    (src : Script) (hc : Clean src) (hb : bytesOf src = frames ms ++ (be16 n ++ rest)) (i : Bool) :
    ∃ pt' src', process handle { inited := i } src = some (.tooLong, pt', src', ms) := by
  have hwf : WF { inited := i } := ⟨fun _ => ⟨by simp, rfl, by simp⟩, (by intro h; cases h), (by intro h; cases h)⟩
  obtain ⟨⟨r, pt', src', outs⟩, hp⟩ := process_total handle { inited := i } src hwf
  obtain ⟨h1, h2, h3⟩ := handled_are_the_messages handle _ _ _ _ _ _ hwf hp
  have h4 := run_clean _ hwf hc hp
  have h2' : frames ms ++ (be16 n ++ rest) = frames outs ++ (held pt' ++ bytesOf src') := by
    rw [← hb]; simpa [held] using h2
  rcases frames_prefix ms outs _ _ hms h3 h2' with ⟨ms', h5, h6⟩ | ⟨o, os, h5, h6⟩
  · -- `outs` is a prefix of `ms`
    cases ms' with
    | nil =>
      have h7 : be16 n ++ rest = held pt' ++ bytesOf src' := by simpa [frames] using h6
      cases r with
      | tooLong => exact ⟨pt', src', by rw [hp, h5, List.append_nil]⟩
      | clean =>
        exfalso
        obtain ⟨ha, hs, hl⟩ := h4
        have := congrArg List.length h7
        simp [held, (h1.len hs).2.1, ha, bytesOf] at this
        omega
      | readErr =>
        exfalso
        obtain ⟨ha, hs, hl⟩ := h4
        obtain ⟨hb1, hb2, -⟩ := h1.body hs
        have : be16 n = pt'.hdr := (List.append_inj (by simpa [held] using h7) (by simpa using hb1.symm)).1
        rw [← this, hdrVal_be16 hn'] at hb2
        omega
      | failed =>
        have h7 : handle pt'.body = false := h4
        rw [hh] at h7; cases h7
    | cons m ms' =>
      exfalso
      have hm := hms m (by rw [h5]; simp)
      have e1 : frames (m :: ms') = be16 m.length ++ (m ++ frames ms') := by simp [frames, frame]
      rw [e1] at h6
      cases r with
      | tooLong =>
        obtain ⟨-, h7, h8⟩ := h4
        have : be16 m.length = pt'.hdr := (List.append_inj (by simpa [held] using h6) (by simpa using h7.symm)).1
        rw [← this, hdrVal_be16 (by omega)] at h8
        omega
      | clean =>
        obtain ⟨ha, hs, hl⟩ := h4
        have := congrArg List.length h6
        simp [held, (h1.len hs).2.1, ha, bytesOf] at this
        omega
      | readErr =>
        obtain ⟨ha, hs, hl⟩ := h4
        obtain ⟨hb1, hb2, -⟩ := h1.body hs
        obtain ⟨h8, h9⟩ := List.append_inj (by simpa [held] using h6) (by simpa using hb1.symm)
        have h10 : hdrVal pt'.hdr = m.length := by rw [← h8, hdrVal_be16 (by omega)]
        have := congrArg List.length h9
        simp [ha, bytesOf] at this
        omega
      | failed =>
        have h7 : handle pt'.body = false := h4
        rw [hh] at h7; cases h7
  · -- a handled message would start at the oversized header
    exfalso
    have ho := h3 o (by rw [h5]; simp)
    have e1 : frames (o :: os) = be16 o.length ++ (o ++ frames os) := by simp [frames, frame]
    rw [e1] at h6
    have h7 := (List.append_inj (by simpa using h6) (by simp)).1
    have : n = o.length := by rw [← hdrVal_be16 hn', h7, hdrVal_be16 (by omega)]
    omega

/-- C42, what is sent back: a message of at most 4094 bytes is written as one length-prefixed message. -/
theorem response_framed_partial (m : Bytes) (h : m.length ≤ 4094) : respMsg m = frame m := by
  unfold respMsg frame
  rw [Nat.mod_eq_of_lt (by omega), List.take_of_length_le]
  simp
  omega

theorem flatMap_congr' {f g : Bytes → Bytes} : ∀ (l : List Bytes), (∀ m ∈ l, f m = g m) → l.flatMap f = l.flatMap g := by
  intro l
  induction l with
  | nil => intro _; rfl
  | cons a l ih =>
    intro h
    rw [List.flatMap_cons, List.flatMap_cons, h a List.mem_cons_self, ih (fun m hm => h m (List.mem_cons_of_mem _ hm))]

/-- C42: what is sent back, cut in any way, is reassembled by a reader of this kind to the session description and
the candidates, up to the empty one that ends the gathering — if none is longer than 4094 bytes. -/
theorem response_parses_back_partial (sdp : Bytes) (cands : List Bytes) (hs : sdp.length ≤ 4094)
    (hcs : ∀ c ∈ cands, c.length ≤ 4094) (src : Script) (hc : Clean src) (hb : bytesOf src = respBytes sdp cands) (i : Bool) :
    ∃ pt', process (fun _ => true) { inited := i } src =
      some (.clean, pt', [], sdp :: cands.takeWhile (fun c => !c.isEmpty)) ∧ held pt' = [] := by
  have hm : ∀ m ∈ sdp :: cands.takeWhile (fun c => !c.isEmpty), m.length ≤ 4094 := by
    intro m h
    rcases List.mem_cons.1 h with rfl | h
    · exact hs
    · exact hcs m ((List.takeWhile_sublist _).subset h)
  refine messages_reassembled _ (fun _ => rfl) _ (fun m h => by have := hm m h; omega) src hc ?_ i
  rw [hb, respBytes, frames, List.flatMap_cons, response_framed_partial sdp hs]
  congr 1
  exact flatMap_congr' _ (fun m h => response_framed_partial m (hm m (List.mem_cons_of_mem _ h)))

/-- Not so for a longer message: it announces its full length but only its first 4094 bytes are written, so the
reader takes bytes of the following messages for its rest. -/
theorem response_truncated (m : Bytes) (h : 4094 < m.length) (h' : m.length < 65536) :
    respMsg m = be16 m.length ++ m.take 4094 ∧ respMsg m ≠ frame m := by
  have e : respMsg m = be16 m.length ++ m.take 4094 := by
    unfold respMsg
    rw [Nat.mod_eq_of_lt h', List.take_append]
    simp
    exact List.take_of_length_le (by simp)
  refine ⟨e, ?_⟩
  rw [e, frame]
  intro h2
  have := congrArg List.length (List.append_cancel_left h2)
  simp at this
  omega

/-! ### Concrete cases -/

instance : DecidableEq Script := inferInstanceAs (DecidableEq (List (Bytes × Option Err)))

/-- Two messages cut inside the length and inside the body. -/
example : process (fun _ => true) {} [([0], none), ([2, 7], none), ([8, 0, 1, 9], none)] =
    some (.clean, { inited := true }, [], [[7, 8], [9]]) := by decide +kernel

/-- A body that ends inside a message: refused; the message is finished by the next request. -/
example : process (fun _ => true) {} [([0, 3, 1, 2], none)] =
    some (.readErr, { st := .body, hdr := [0, 3], body := [1, 2] }, [], []) := by decide +kernel
example : process (fun _ => true) { st := .body, hdr := [0, 3], body := [1, 2] } [([3], none)] =
    some (.clean, { inited := true }, [], [[1, 2, 3]]) := by decide +kernel

/-- A message that could not be handled blocks the task: every later request finds it again. -/
theorem failed_message_stays (handle : Bytes → Bool) (pt : PT) (src : Script) (hs : pt.st = .proc) (hf : handle pt.body = false) :
    process handle pt src = some (.failed, { pt with st := .proc, inited := true }, src, []) := by
  unfold process fuel run iter
  rw [hs]
  simp [doProc, hf]

example : process (fun m => m != [7]) {} [([0, 1, 7, 0, 1, 8], none)] =
    some (.failed, { st := .proc, hdr := [0, 1], body := [7], inited := true }, [([0, 1, 8], none)], []) := by decide +kernel

end Verif.Client.PeerMsg

