import Verif.Tunnel.Props
/-!
# C33: the client's API connection (libcs/client/api/conn.go) and `respAndClose` (libcs/client/peer.go)

The virtual connection between the client's own HTTP API server and a public connection: its writes are
cut into data frames on the tunnel.
-/
set_option linter.unusedSimpArgs false
set_option linter.unusedVariables false
namespace Verif.Client.ApiConn
open Verif Verif.Tunnel

/-- pool/bytes.go `MaxBufferSize`: the size of the pooled buffer `c.buf`. -/
def bufSize : Nat := 4096

/-- Result of one `Write` of the network: bytes taken and whether an error was returned. -/
structure NetRes where
  n : Nat
  err : Bool
deriving DecidableEq, Repr

/-- libcs/conn/conn.go:44-57 `Connection.Write`: a short write without an error becomes
`ErrInvalidWrite`. (The deadline is not modelled; `SetWriteDeadline` failures count as errors with n = 0.)
The result is the pair returned to the caller; the wire receives the first `n` bytes. -/
def connWrite (r : NetRes) (b : Bytes) : NetRes :=
  if r.n ≠ b.length then ⟨r.n, true⟩ else r

/-- What a call on the API connection did. -/
structure Res where
  /-- bytes that reached the tunnel -/
  wire : Bytes
  /-- returned count -/
  n : Nat
  err : Bool
deriving DecidableEq, Repr

/-- The network: the outcome of each `Write`, in order; all later ones succeed. -/
def netNext (net : List NetRes) (len : Nat) : NetRes × List NetRes :=
  match net with
  | [] => (⟨len, false⟩, [])
  | r :: rs => (r, rs)

/-- libcs/client/api/conn.go:82-96: the loop of `Write`. `c.buf[:10+j]` is entirely rewritten in every
iteration (task id and operation before the loop, length and payload inside), so the buffer is not part
of the state. Fuel: `writeLoop_fuel`. -/
def writeLoop (id : Nat) : Nat → List NetRes → Bytes → Bytes → Nat → Option (Res × List NetRes)
  | 0, _, _, _, _ => none
  | f + 1, net, b, wire, n =>
    let chunk := b.take (bufSize - 10)          -- j := copy(c.buf[10:], b[i:])
    let frame := be32 id ++ be16 opData ++ be32 chunk.length ++ chunk
    let (r0, net') := netNext net frame.length
    let r := connWrite r0 frame
    let wire' := wire ++ frame.take r.n
    if r.err then some (⟨wire', n, true⟩, net')          -- `return` before `n += nw`
    else
      let b' := b.drop (bufSize - 10)
      if b'.length = 0 then some (⟨wire', n + r.n, false⟩, net')
      else writeLoop id f net' b' wire' (n + r.n)

/-- libcs/client/api/conn.go:74-97 `Write`; the mutex makes calls atomic with respect to each other. -/
def write (id : Nat) (net : List NetRes) (b : Bytes) : Option (Res × List NetRes) :=
  writeLoop id (b.length + 1) net b [] 0

/-- libcs/client/api/conn.go:100-106 `writeClose`. -/
def writeClose (id : Nat) (net : List NetRes) : Res × List NetRes :=
  let frame := be32 id ++ be16 opClose
  let (r0, net') := netNext net frame.length
  let r := connWrite r0 frame
  (⟨frame.take r.n, r.n, r.err⟩, net')

/-! ## Specification -/

/-- The payload cut into pieces no larger than what fits into one buffer with a 10-byte header. -/
def IsCut (pieces : List Bytes) (b : Bytes) : Prop :=
  pieces.flatten = b ∧ (∀ p ∈ pieces, p.length ≤ 4086) ∧ (b ≠ [] → ∀ p ∈ pieces, p ≠ [])

/-- What a writer of data frames has to put on the tunnel. -/
def dataFrames (id : Nat) (pieces : List Bytes) : Bytes :=
  encAllC (pieces.map (CFrame.data id))

/-! ## Lemmas -/

theorem connWrite_ok {r : NetRes} {b : Bytes} (h : (connWrite r b).err = false) : (connWrite r b).n = b.length := by
  unfold connWrite at *
  split at h
  · simp at h
  · rename_i h1; simp only [ne_eq, Decidable.not_not] at h1; simp [h1]

theorem dataFrames_cons (id : Nat) (p : Bytes) (ps : List Bytes) :
    dataFrames id (p :: ps) = (be32 id ++ be16 opData ++ be32 p.length ++ p) ++ dataFrames id ps := by
  simp [dataFrames, encAllC, CFrame.enc]

/-- Full description of the loop: there is a cut of the payload such that either everything was sent, or
an error stopped it inside the frame sequence. -/
theorem writeLoop_spec (id : Nat) (f : Nat) (net : List NetRes) (b wire : Bytes) (n : Nat) (hf : b.length < f) :
    ∃ r net', writeLoop id f net b wire n = some (r, net') ∧
      ∃ pieces, IsCut pieces b ∧ 0 < pieces.length ∧
        ((r.err = false ∧ r.wire = wire ++ dataFrames id pieces ∧ r.n = n + b.length + 10 * pieces.length) ∨
         (r.err = true ∧ ∃ sent, sent <+: dataFrames id pieces ∧ r.wire = wire ++ sent)) := by
  induction f generalizing net b wire n with
  | zero => omega
  | succ f ih =>
    unfold writeLoop
    dsimp only
    generalize hc : b.take (bufSize - 10) = chunk
    generalize hd : b.drop (bufSize - 10) = b'
    have hb : b = chunk ++ b' := by rw [← hc, ← hd, List.take_append_drop]
    have hcl : chunk.length ≤ 4086 := by rw [← hc, List.length_take]; simp only [bufSize]; omega
    generalize hfr : be32 id ++ be16 opData ++ be32 chunk.length ++ chunk = frame
    have hfl : frame.length = 10 + chunk.length := by
      rw [← hfr]; simp [be32_length, be16_length]; omega
    generalize netNext net frame.length = q
    obtain ⟨r0, net'⟩ := q
    dsimp only
    -- the rest of the payload and one possible cut of it
    have hne : b ≠ [] → chunk ≠ [] := by
      intro h0 h1
      apply h0
      have : (b.take (bufSize - 10)).length = 0 := by rw [hc, h1]; rfl
      rw [List.length_take] at this
      simp only [bufSize] at this
      exact List.length_eq_zero_iff.mp (by omega)
    by_cases he : (connWrite r0 frame).err = true
    · rw [if_pos he]
      refine ⟨_, _, rfl, ?_⟩
      -- complete the cut arbitrarily using the induction hypothesis on an error-free network
      by_cases hz : b'.length = 0
      · have hz' : b' = [] := List.length_eq_zero_iff.mp hz
        refine ⟨[chunk], ⟨by simp [hb, hz'], by simpa using hcl, fun h => by simpa using hne h⟩, by simp, Or.inr ⟨rfl, _, ?_, rfl⟩⟩
        rw [dataFrames_cons, hfr]
        exact List.IsPrefix.trans (List.take_prefix _ _) (List.prefix_append _ _)
      · have hlt : b'.length < f := by
          have : b.length = chunk.length + b'.length := by rw [hb]; simp
          have h1 : b ≠ [] := by intro h0; rw [h0] at this; simp at this; omega
          have h2 := List.length_pos_iff.2 (hne h1)
          omega
        obtain ⟨r, n', hr, pieces, hcut, hpos, _⟩ := ih [] b' [] 0 hlt
        refine ⟨chunk :: pieces, ⟨?_, ?_, ?_⟩, by simp, Or.inr ⟨rfl, _, ?_, rfl⟩⟩
        · simp [hcut.1, ← hb]
        · intro p hp; rcases List.mem_cons.1 hp with rfl | hp
          · exact hcl
          · exact hcut.2.1 p hp
        · intro h0 p hp; rcases List.mem_cons.1 hp with rfl | hp
          · exact hne h0
          · exact hcut.2.2 (by intro h1; rw [h1] at hz; simp at hz) p hp
        · rw [dataFrames_cons, hfr]
          exact List.IsPrefix.trans (List.take_prefix _ _) (List.prefix_append _ _)
    · have he' : (connWrite r0 frame).err = false := by simpa using he
      have hn := connWrite_ok he'
      rw [if_neg he, hn, List.take_length]
      by_cases hz : b'.length = 0
      · have hz' : b' = [] := List.length_eq_zero_iff.mp hz
        simp only [hz, if_true]
        refine ⟨_, _, rfl, [chunk], ⟨by simp [hb, hz'], by simpa using hcl, fun h => by simpa using hne h⟩, by simp, Or.inl ⟨rfl, ?_, ?_⟩⟩
        · rw [dataFrames_cons, hfr]; simp [dataFrames, encAllC]
        · have : b.length = chunk.length := by rw [hb, hz']; simp
          simp only [List.length_singleton, hfl]; omega
      · simp only [hz, if_false]
        have hlen : b.length = chunk.length + b'.length := by rw [hb]; simp
        have h1 : b ≠ [] := by intro h0; rw [h0] at hlen; simp at hlen; omega
        have hlt : b'.length < f := by
          have h2 := List.length_pos_iff.2 (hne h1)
          omega
        obtain ⟨r, n', hr, pieces, hcut, hpos, hres⟩ := ih net' b' (wire ++ frame) (n + frame.length) hlt
        refine ⟨r, n', hr, chunk :: pieces, ⟨?_, ?_, ?_⟩, by simp, ?_⟩
        · simp [hcut.1, ← hb]
        · intro p hp; rcases List.mem_cons.1 hp with rfl | hp
          · exact hcl
          · exact hcut.2.1 p hp
        · intro h0 p hp; rcases List.mem_cons.1 hp with rfl | hp
          · exact hne h0
          · exact hcut.2.2 (by intro h1; rw [h1] at hz; simp at hz) p hp
        · rcases hres with ⟨a, c, d⟩ | ⟨a, sent, c, d⟩
          · refine Or.inl ⟨a, ?_, ?_⟩
            · rw [c, dataFrames_cons, hfr]; simp
            · rw [d, hfl]; simp only [List.length_cons]; omega
          · refine Or.inr ⟨a, frame ++ sent, ?_, ?_⟩
            · rw [dataFrames_cons, hfr]; exact (List.prefix_append_right_inj _).2 c
            · rw [d]; simp

/-! ## C33 -/

/-- C33 (bytes): every write sends exactly the payload, as data frames of this connection's task that fit
the peer's buffer, in one unbroken sequence, and reports success exactly when all of it was taken by the
network; on failure the wire holds a prefix of those frames. -/
theorem api_write_sends_payload (id : Nat) (net : List NetRes) (b : Bytes) :
    ∃ r net' pieces, write id net b = some (r, net') ∧ IsCut pieces b ∧
      (r.err = false → r.wire = dataFrames id pieces) ∧
      (r.err = true → r.wire <+: dataFrames id pieces) := by
  obtain ⟨r, net', h, pieces, hc, _, hr⟩ := writeLoop_spec id (b.length + 1) net b [] 0 (by omega)
  refine ⟨r, net', pieces, h, hc, ?_, ?_⟩
  · intro h0
    rcases hr with ⟨_, a, _⟩ | ⟨a, _⟩
    · simpa using a
    · rw [h0] at a; simp at a
  · intro h0
    rcases hr with ⟨a, _⟩ | ⟨_, sent, a, c⟩
    · rw [h0] at a; simp at a
    · simp only [List.nil_append] at c; rw [c]; exact a

/-- If the network takes everything, the write succeeds. -/
theorem api_write_succeeds (id : Nat) (b : Bytes) (r : Res) (net' : List NetRes) (h : write id [] b = some (r, net')) :
    r.err = false := by
  have key : ∀ f b wire n r net', writeLoop id f [] b wire n = some (r, net') → r.err = false := by
    intro f
    induction f with
    | zero => intro b wire n r net' h; simp [writeLoop] at h
    | succ f ih =>
      intro b wire n r net' h
      simp only [writeLoop, netNext, connWrite, ne_eq, not_true, if_false, Bool.false_eq_true] at h
      split at h
      · simp only [Option.some.injEq, Prod.mk.injEq] at h; rw [← h.1]
      · exact ih _ _ _ _ _ h
  exact key _ _ _ _ _ _ h

/-- C33 is violated in the returned count: a successful write always returns more than the length of the
payload (it counts the 10-byte header of every frame), which the `io.Writer` contract forbids. -/
theorem api_write_count_wrong (id : Nat) (net : List NetRes) (b : Bytes) (r : Res) (net' : List NetRes)
    (h : write id net b = some (r, net')) (hok : r.err = false) :
    b.length + 10 ≤ r.n ∧ ∃ frames, 0 < frames ∧ r.n = b.length + 10 * frames := by
  obtain ⟨r', n', h', pieces, hc, hpos, hr⟩ := writeLoop_spec id (b.length + 1) net b [] 0 (by omega)
  unfold write at h
  rw [h] at h'
  simp only [Option.some.injEq, Prod.mk.injEq] at h'
  rw [← h'.1] at hr
  rcases hr with ⟨_, _, a⟩ | ⟨a, _⟩
  · exact ⟨by omega, _, hpos, by omega⟩
  · rw [hok] at a; simp at a

/-- Concrete: a 3-byte write returns 13; a 4087-byte write uses two frames and returns 4107. -/
example : write 7 [] [1, 2, 3] = some (⟨[0, 0, 0, 7, 0, 0, 0, 0, 0, 3, 1, 2, 3], 13, false⟩, []) := by
  decide +kernel
example : (write 7 [] (List.replicate 4087 0)).map (fun x => (x.1.n, x.1.wire.length)) = some (4107, 4107) := by
  decide +kernel

/-! ## Delivery through the server -/

/-- The frames of a whole life of the connection: every successful nonempty write, then `Close`
(libcs/client/api/conn.go:108-127). -/
inductive Session (id : Nat) : List Bytes → List CFrame → Prop where
  | nil : Session id [] []
  | write (ws : List Bytes) (fs : List CFrame) (b : Bytes) (pieces : List Bytes) (r : Res) (net net' : List NetRes)
      (h : Session id ws fs) (hw : write id net b = some (r, net')) (hok : r.err = false)
      (hc : IsCut pieces b) (hwire : r.wire = dataFrames id pieces) :
      Session id (ws ++ [b]) (fs ++ pieces.map (CFrame.data id))

theorem Session.data {id : Nat} {ws : List Bytes} {fs : List CFrame} (h : Session id ws fs)
    (hne : ∀ w ∈ ws, w ≠ []) : (∀ x ∈ fs, CDataOf id x) ∧ payloadC fs = ws.flatten := by
  induction h with
  | nil => simp [payloadC]
  | write ws fs b pieces r net net' h hw hok hc hwire ih =>
    have ih := ih (fun w hw => hne w (by simp [hw]))
    have hb := hne b (by simp)
    constructor
    · intro x hx
      rcases List.mem_append.1 hx with hx | hx
      · exact ih.1 x hx
      · obtain ⟨p, hp, rfl⟩ := List.mem_map.1 hx
        exact ⟨p, rfl, List.length_pos_iff.2 (hc.2.2 hb p hp), hc.2.1 p hp⟩
    · rw [payloadC_append, ih.2, List.flatten_append]
      congr 1
      rw [List.flatten_singleton, ← hc.1]
      simp [payloadC, List.map_map, Function.comp_def, CFrame.payload]

/-- C33 (delivery): the concatenation of all nonempty writes reaches exactly the public connection
registered under the task id, in order, followed by the close, for every interleaving with frames of
other tasks. -/
theorem api_bytes_reach_the_public_connection (dl : Bool) (i : Nat) (ws : List Bytes) (fs : List CFrame)
    (hs : Session i ws fs) (hne : ∀ w ∈ ws, w ≠ [])
    (s : SState) (hst : ∃ l, s = List.foldl act .init l) (hreg : viewS s i = some ⟨[], false⟩)
    (h : List (CFrame × SEnv)) (hv : ∀ x ∈ h, x.1.Valid) (hclose : ∀ x ∈ h, x.1 ≠ .close)
    (hping : ∀ x ∈ h, x.2.pingOk = true) (hempty : ∀ x ∈ h, ∀ id, x.1 ≠ .data id [])
    (hmine : (h.filter (fun x => x.1.isOf i)).map (·.1) = fs ++ [.closeTask i])
    (hstay : ∀ x ∈ h, x.2.acts.any (Act.isOf i) = false)
    (hok : ∀ x ∈ h, x.1.isOf i = true → x.2.accept = none) (tail : Bytes) :
    (runS dl (h.map (·.2)) s (encAllC (h.map (·.1)) ++ tail)).rest = tail ∧
    viewS (runS dl (h.map (·.2)) s (encAllC (h.map (·.1)) ++ tail)).st i = some ⟨ws.flatten, true⟩ := by
  obtain ⟨hd, hp⟩ := hs.data hne
  rcases server_demultiplexes dl h hv s hst tail with ⟨a, b, c⟩ | ⟨k, x, hx, _, hd'⟩
  · refine ⟨b, ?_⟩
    have hfc : h.filter (concernsS i) = h.filter (fun x => x.1.isOf i) := by
      apply List.filter_congr
      intro x hx
      simp only [concernsS, hstay x hx, Bool.or_false]
    rw [c i, hfc, hreg, ownRunS_connection i fs hd false _ [] (by simpa using hmine) ?_, hp]
    · rfl
    · intro x hx
      rw [List.mem_filter] at hx
      exact ⟨hok x hx.1 hx.2, hstay x hx.1⟩
  · exfalso
    have hmem := List.mem_of_getElem? hx
    rcases hd' with ⟨_, hd' | ⟨hd', _⟩⟩ | ⟨_, _, id, hid⟩
    · simp [hping x hmem] at hd'
    · exact hclose x hmem hd'
    · exact hempty x hmem id hid

/-- **C33, closing.**  Closing the API connection puts exactly the close frame of its own task on the tunnel if the
network takes it; otherwise it reports an error and what was sent is a prefix of that frame. -/
theorem api_close_sends_close (id : Nat) (net : List NetRes) :
    ((writeClose id net).1.err = false ∧ (writeClose id net).1.wire = (CFrame.closeTask id).enc) ∨
    ((writeClose id net).1.err = true ∧ (writeClose id net).1.wire <+: (CFrame.closeTask id).enc) := by
  have e : (CFrame.closeTask id).enc = be32 id ++ be16 opClose := rfl
  rw [e]
  unfold writeClose
  dsimp only
  generalize be32 id ++ be16 opClose = frame
  cases hn : netNext net frame.length with
  | mk r0 net' =>
    dsimp only
    cases he : (connWrite r0 frame).err with
    | false =>
      left
      refine ⟨rfl, ?_⟩
      rw [connWrite_ok he, List.take_length]
    | true => right; exact ⟨rfl, List.take_prefix _ _⟩

/-- Non-vacuity: two writes on task 3 interleaved with a frame of task 5. -/
example :
    let ok : SEnv := ⟨[], none, true⟩
    let h : List (CFrame × SEnv) :=
      [(.data 3 (ascii "he"), ok), (.data 5 (ascii "zz"), ok), (.data 3 (ascii "llo"), ok), (.closeTask 3, ok)]
    (write 3 [] (ascii "he")).map (·.1.wire) = some (CFrame.data 3 (ascii "he")).enc ∧
    (write 3 [] (ascii "llo")).map (·.1.wire) = some (CFrame.data 3 (ascii "llo")).enc ∧
    (writeClose 3 []).1.wire = (CFrame.closeTask 3).enc ∧
    viewS (runS true (h.map (·.2)) (List.foldl act .init [.add 3]) (encAllC (h.map (·.1)))).st 3
      = some ⟨ascii "hello", true⟩ := by
  decide +kernel

theorem runS_panics (inp rest : Bytes) (id : Nat) (h : parseS inp = some (SItem.data id [], rest)) :
    (runS true [⟨[], none, true⟩] .init inp).fin = .panic := by
  simp only [runS, h, acts, List.foldl_nil, handleS]
  simp [SState.init]

/-- An empty write sends an empty data frame; if the public connection has already gone, the server's
tunnel reader panics on it (C12). -/
theorem empty_write_crashes_reader (id : Nat) (hid : id < preserved) :
    ∃ r net', write id [] [] = some (r, net') ∧ r.wire = (CFrame.data id []).enc ∧
      (runS true [⟨[], none, true⟩] .init r.wire).fin = .panic := by
  obtain ⟨r, net', hw, pieces, hc, hpos, hr⟩ := writeLoop_spec id 1 [] [] [] 0 (by decide)
  refine ⟨r, net', hw, ?_⟩
  have hok := api_write_succeeds id [] r net' hw
  have hwire : r.wire = (CFrame.data id []).enc := by
    simp only [writeLoop, netNext, connWrite, List.take_nil, List.drop_nil, ne_eq, not_true, if_false,
      List.length_nil, if_true, Bool.false_eq_true, Option.some.injEq, Prod.mk.injEq] at hw
    rw [← hw.1]
    simp only [List.nil_append, List.take_length]
    rfl
  refine ⟨hwire, ?_⟩
  rw [hwire]
  have hv : (CFrame.data id []).Valid := ⟨hid, Nat.zero_lt_succ _⟩
  have := parseS_enc (.data id []) hv []
  rw [List.append_nil] at this
  exact runS_panics _ _ id this

/-! ## `respAndClose` -/

/-- libcs/client/peer.go:188-237 `respAndClose`, the frames it writes when the network takes them: header
written into the pooled buffer, the buffer replaced by a zeroed one of `s` bytes when `s > 4096` (so the
header written before is lost), payload copied to `buf[10:]`, then the close frame. -/
def respAndClose (id : Nat) (data : List Bytes) : List Bytes :=
  let s := data.flatten.length
  let hdr := if s > bufSize then be32 0 ++ be16 0 else be32 id ++ be16 opData
  let cap := if s > bufSize then s - 10 else bufSize - 10
  let body := data.flatten.take cap         -- successive copies stop at the end of the buffer
  (if body.length > 0 then [hdr ++ be32 body.length ++ body] else []) ++ [be32 id ++ be16 opClose]

/-- Without a response only the close is sent: no empty data frame. -/
theorem resp_empty (id : Nat) (data : List Bytes) (h0 : data.flatten = []) :
    respAndClose id data = [(CFrame.closeTask id).enc] := by
  simp [respAndClose, h0, CFrame.enc]

/-- `respAndClose` sends the response in one data frame of the task and then closes it, as long as it
fits into the buffer with its header (every caller in the code base sends a fixed 45-byte response). -/
theorem resp_and_close_partial (id : Nat) (data : List Bytes) (h0 : data.flatten ≠ []) (h : data.flatten.length ≤ 4086) :
    respAndClose id data = [(CFrame.data id data.flatten).enc, (CFrame.closeTask id).enc] := by
  have hl := List.length_pos_iff.2 h0
  have h1 : ¬ (data.flatten.length > bufSize) := by simp only [bufSize]; omega
  have h2 : data.flatten.take (bufSize - 10) = data.flatten := List.take_of_length_le (by simp only [bufSize]; omega)
  simp only [respAndClose, h1, if_false, h2, hl, CFrame.enc, List.length_append, gt_iff_lt, if_true]
  simp [CFrame.enc]

/-- The callers' response. -/
example : respAndClose 9 [ascii "HTTP/1.1 403 Forbidden\r\nConnection: Closed\r\n\r\n"] =
    [(CFrame.data 9 (ascii "HTTP/1.1 403 Forbidden\r\nConnection: Closed\r\n\r\n")).enc, (CFrame.closeTask 9).enc] := by
  decide +kernel

/-- Finding: any longer response loses bytes, and beyond 4096 bytes it is sent under task id 0. -/
theorem resp_truncated (id : Nat) (data : List Bytes) (h : 4086 < data.flatten.length) :
    ∃ hdr body, respAndClose id data = [hdr ++ be32 body.length ++ body, be32 id ++ be16 opClose] ∧
      body.length < data.flatten.length ∧ (4096 < data.flatten.length → hdr = be32 0 ++ be16 0) := by
  have hb : bufSize = 4096 := rfl
  by_cases h1 : data.flatten.length > bufSize
  · have hp : (data.flatten.take (data.flatten.length - 10)).length > 0 := by rw [List.length_take]; omega
    refine ⟨be32 0 ++ be16 0, data.flatten.take (data.flatten.length - 10), ?_, ?_, fun _ => rfl⟩
    · simp only [respAndClose, if_pos h1, if_pos hp]; rfl
    · rw [List.length_take]; omega
  · have hp : (data.flatten.take (bufSize - 10)).length > 0 := by rw [List.length_take]; omega
    refine ⟨be32 id ++ be16 opData, data.flatten.take (bufSize - 10), ?_, ?_, fun _ => by omega⟩
    · simp only [respAndClose, if_neg h1, if_pos hp]; rfl
    · rw [List.length_take]; omega

end Verif.Client.ApiConn
