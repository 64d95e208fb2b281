import Verif.Util.Pool
import Verif.Client.HostRewrite
import Verif.Tunnel.Wire
/-!
# C122: the users of the buffer pool

Each user of `pool.BytesPool` as a program over the memory of Util/Pool.lean, and whether it obeys the rules.
The offsets are those of the code.

Not modelled: `pool.GetReader`/`PutReader` (libcs/pool/pool.go:36-52): the reader is used by the goroutine that took
it and given back when that goroutine ends; failing writes other than as an earlier end of the program.
-/
set_option linter.unusedSimpArgs false
set_option linter.unusedVariables false
set_option linter.unusedSectionVars false
namespace Verif.Pool
open Verif Verif.Tunnel

/-! ## Visitors and local connections -/

/-- The loop of both `process` functions (libcs/server/conn.go:1058-1091, libcs/client/task.go:282-317): read behind
the header, fill in the length, write. `reads` are the nonempty reads. -/
def loopOps : List Bytes → List Op
  | [] => []
  | d :: r => .fill 10 d :: .fill 6 (be32 d.length) :: .use 0 (10 + d.length) :: loopOps r

/-- The close frame (libcs/server/conn.go:987-990, libcs/client/task.go:252-256), unless the other side closed first or
a write failed. -/
def closeOps (closes : Bool) : List Op := if closes then [.fill 4 (be16 opClose), .use 0 6] else []

/-- libcs/server/conn.go:980-1095 `process`: `first` is what is buffered, at most 4084 bytes. -/
def serverOps (id si : Nat) (first : Bytes) (reads : List Bytes) (closes : Bool) : List Op :=
  [.get, .fill 0 (be32 id), .fill 4 (be16 opServicesData ++ be16 si), .fill 12 first, .fill 8 (be32 first.length),
    .use 0 (12 + first.length), .fill 4 (be16 opData)] ++ loopOps reads ++ closeOps closes ++ [.put]

/-- libcs/client/task.go:245-318 `process`. -/
def clientOps (id : Nat) (reads : List Bytes) (closes : Bool) : List Op :=
  [.get, .fill 0 (be32 id), .fill 4 (be16 opData)] ++ loopOps reads ++ closeOps closes ++ [.put]

/-- libcs/client/tcpforward.go:113-132 and libcs/client/peer.go:566-595: read, send, repeat. -/
def copyOps (reads : List Bytes) : List Op :=
  .get :: (reads.flatMap fun d => [.fill 0 d, .use 0 d.length]) ++ [.put]

/-- libcs/conn/conn.go:256-279 (one receiver) and libcs/client/client.go:959-985 (`ReloadServices`: the same bytes to
every tunnel). -/
def broadcastOps (d : Bytes) (n : Nat) : List Op :=
  [.get, .fill 0 d] ++ List.replicate n (.use 0 d.length) ++ [.put]

/-! ## The HTTP task that replaces the Host header -/

/-- Where the bytes written come from: the pooled buffer (`p = t.tempBuf.Bytes()`), or elsewhere. -/
def src (pooled : Bool) (off : Nat) (d : Bytes) : Op := if pooled then .use off d.length else .send d

open Client.HostRewrite in
/-- libcs/client/task.go:130-197, the accesses to the pooled buffer. `h`, the new header line, is at its beginning and
`tempBuf` behind it (libcs/client/task.go:59-65). `pooled`: the bytes `p` are in the buffer, at `off`; `moved`: `tempBuf` has
outgrown the buffer and has its own memory since (`bytes.Buffer` grows by reallocation). The buffer is given back
at line 185, the rest of `p` is written after that (191). -/
def hostLoopOps (h : Bytes) (pooled moved : Bool) : Nat → Nat → Bytes → List Op
  | 0, _, _ => []
  | fuel + 1, off, p =>
    if p = [] then []
    else
      match isGoodToWrite p with
      | .good =>
        match cutLine p with
        | none => [src pooled off p]
        | some (l, r) => src pooled off l :: hostLoopOps h pooled moved fuel (off + l.length) r
      | .unsure => if moved then [] else [.fill h.length p]
      | .replace =>
        match cutLine p with
        | none => [.use 0 h.length]
        | some (l, r) => .use 0 h.length :: .put :: (if r = [] then [] else [src pooled (off + l.length) r])

/-- libcs/client/task.go:109-128: `t` is held back in `tempBuf`, whose capacity is 4096 less the header line. -/
def atLineOps (h : Bytes) (moved : Bool) (t p : Bytes) : List Op × Bool :=
  if p.length + t.length < 5 then (if moved then [] else [.fill (h.length + t.length) p], moved)
  else if t.length > 0 then
    if moved = true ∨ 4096 < h.length + t.length + p.length then
      (hostLoopOps h false true ((t ++ p).length + 1) 0 (t ++ p), true)
    else (.fill (h.length + t.length) p :: hostLoopOps h true false ((t ++ p).length + 1) h.length (t ++ p), false)
  else (hostLoopOps h false moved (p.length + 1) 0 p, moved)

open Client.HostRewrite in
/-- libcs/client/task.go:68-199 `Write`. -/
def hostWriteOps (h : Bytes) (s : Client.HostRewrite.St) (moved : Bool) (p : Bytes) : List Op × Bool :=
  match s.temp with
  | none => ([.send p], moved)
  | some t =>
    if s.skipping then
      match cutLine p with
      | none => ([], moved)
      | some (l, r) => if p.length ≤ l.length then ([], moved) else ([.send r], moved)
    else if s.passing then
      match cutLine p with
      | none => ([.send p], moved)
      | some (l, r) =>
        if r.length ≤ 0 then ([.send l], moved)
        else (.send l :: (atLineOps h moved t r).1, (atLineOps h moved t r).2)
    else atLineOps h moved t p

def hostWritesOps (h : Bytes) : Client.HostRewrite.St → Bool → List Bytes → List Op
  | _, _, [] => []
  | s, moved, p :: ps =>
    (hostWriteOps h s moved p).1 ++ hostWritesOps h (Client.HostRewrite.write h s p).2.1 (hostWriteOps h s moved p).2 ps

/-- A task from `setHost` (libcs/client/task.go:55-66) on: the request arrives in `pieces`. -/
def hostOps (h : Bytes) (pieces : List Bytes) : List Op :=
  .get :: .fill 0 h :: hostWritesOps h { temp := some [] } false pieces

/-! ## The connections of the internal API, and P2P sessions -/

/-- A call on an `api.Conn`. `write` carries the pieces its loop sends (libcs/client/api/conn.go:82-96; at least one). -/
inductive Call where
  | write (pieces : List Bytes)
  | close
deriving DecidableEq, Repr

def frameOps (id : Nat) (d : Bytes) : List Op :=
  [.fill 0 (be32 id ++ be16 opData), .fill 10 d, .fill 6 (be32 d.length), .use 0 (10 + d.length)]

/-- libcs/client/api/conn.go:52-65 `NewConn`, 74-97 `Write`, 100-128 `Close` (once). Nothing stops a `Write` after
`Close`. `closed`: `Close` has been called. -/
def connOps (id : Nat) : Bool → List Call → List Op
  | _, [] => []
  | closed, .write ps :: r => (ps.flatMap (frameOps id)) ++ connOps id closed r
  | true, .close :: r => connOps id true r
  | false, .close :: r => .fill 0 (be32 id ++ be16 opClose) :: .use 0 6 :: .put :: connOps id true r

def apiOps (id : Nat) (calls : List Call) : List Op := .get :: connOps id false calls

/-- What happens to the buffer `data` of a P2P session (libcs/client/peer.go, peerproc.go): a message is read and
decoded (libcs/client/peer.go:282-311), an answer or candidate is written (libcs/client/peer.go:338-374), the session is closed from another
goroutine (libcs/client/peer.go:152-186, libcs/client/peerproc.go:179-231; once). -/
inductive Peer where
  | message (d : Bytes)
  | answer (d : Bytes)
  | close
deriving DecidableEq, Repr

def peerOpsFrom : Bool → List Peer → List Op
  | _, [] => []
  | c, .message d :: r => .fill 0 d :: .use 0 d.length :: peerOpsFrom c r
  | c, .answer d :: r => .fill 0 (be16 d.length ++ d) :: .use 0 (2 + d.length) :: peerOpsFrom c r
  | true, .close :: r => peerOpsFrom true r
  | false, .close :: r => .put :: peerOpsFrom true r

def peerOps (l : List Peer) : List Op := .get :: peerOpsFrom false l

/-- libcs/client/peer.go:188-237 `respAndClose`, for answers of at most 4086 bytes (all callers: 46 bytes): the answer
in a data frame, then the close frame. -/
def respOps (id : Nat) (d : Bytes) : List Op :=
  [.get, .fill 0 (be32 id), .fill 4 (be16 opData), .fill 10 d, .fill 6 (be32 d.length), .use 0 (10 + d.length),
    .fill 0 (be32 id), .fill 4 (be16 opClose), .use 0 6, .put]

/-! ## Visitors and local connections obey the rules -/

theorem be16_len (n : Nat) : (be16 n).length = 2 := rfl
theorem be32_len (n : Nat) : (be32 n).length = 4 := rfl

theorem good_loop (reads : List Bytes) (kn : Nat → Bool) (h : ∀ a, a < 6 → kn a = true) (rest : List Op)
    (hrest : ∀ kn', (∀ a, a < 6 → kn' a = true) → Good true kn' rest) : Good true kn (loopOps reads ++ rest) := by
  induction reads generalizing kn with
  | nil => exact hrest kn h
  | cons d r ih =>
    refine ⟨rfl, rfl, rfl, ?_, ih _ ?_⟩
    · intro a _ ha
      simp only [Bool.or_eq_true, Bool.and_eq_true, decide_eq_true_eq]
      simp only [be32_len]
      by_cases h6 : a < 6
      · exact .inl (.inl (h a h6))
      · by_cases h10 : a < 10
        · exact .inr ⟨by omega, by omega⟩
        · exact .inl (.inr ⟨by omega, by omega⟩)
    · intro a ha
      simp only [Bool.or_eq_true]
      exact .inl (.inl (h a ha))

theorem good_close (closes : Bool) (kn : Nat → Bool) (h : ∀ a, a < 6 → kn a = true) :
    Good true kn (closeOps closes ++ [.put]) := by
  cases closes with
  | false => exact ⟨rfl, trivial⟩
  | true =>
    refine ⟨rfl, rfl, ?_, rfl, trivial⟩
    intro a _ ha
    simp only [Bool.or_eq_true]
    exact .inl (h a (by omega))

/-- C122 (visitors): the goroutine of a visitor obeys the rules, whatever it reads and however it ends. -/
theorem server_obeys (id si : Nat) (first : Bytes) (reads : List Bytes) (closes : Bool) :
    Rules (serverOps id si first reads closes) := by
  unfold Rules serverOps
  rw [List.append_assoc]
  refine ⟨rfl, rfl, rfl, rfl, rfl, rfl, ?_, rfl, good_loop reads _ ?_ _ ?_⟩
  · intro a _ ha
    simp only [Bool.or_eq_true, Bool.and_eq_true, decide_eq_true_eq, Bool.false_or,
      Bool.false_eq_true, false_or]
    simp only [be32_len, be16_len, List.length_append]
    omega
  · intro a ha
    simp only [Bool.or_eq_true, Bool.and_eq_true, decide_eq_true_eq,
      Bool.false_eq_true, false_or]
    simp only [be32_len, be16_len, List.length_append]
    omega
  · intro kn' h; exact good_close closes kn' h

/-- C122 (local connections): so does the goroutine of a local connection. -/
theorem client_obeys (id : Nat) (reads : List Bytes) (closes : Bool) : Rules (clientOps id reads closes) := by
  unfold Rules clientOps
  rw [List.append_assoc]
  refine ⟨rfl, rfl, rfl, good_loop reads _ ?_ _ ?_⟩
  · intro a ha
    simp only [Bool.or_eq_true, Bool.and_eq_true, decide_eq_true_eq,
      Bool.false_eq_true, false_or]
    simp only [be32_len, be16_len, List.length_append]
    omega
  · intro kn' h; exact good_close closes kn' h

theorem good_copy (reads : List Bytes) (kn : Nat → Bool) :
    Good true kn ((reads.flatMap fun d => [.fill 0 d, .use 0 d.length]) ++ [.put]) := by
  induction reads generalizing kn with
  | nil => exact ⟨rfl, trivial⟩
  | cons d r ih =>
    refine ⟨rfl, rfl, ?_, ih _⟩
    intro a _ ha
    simp only [Bool.or_eq_true, Bool.and_eq_true, decide_eq_true_eq]
    exact .inr ⟨by omega, ha⟩

/-- C122 (forwarded connections). -/
theorem copy_obeys (reads : List Bytes) : Rules (copyOps reads) := ⟨rfl, good_copy reads _⟩

/-- C122 (signals and reloads). -/
theorem broadcast_obeys (d : Bytes) (n : Nat) : Rules (broadcastOps d n) := by
  refine ⟨rfl, rfl, ?_⟩
  generalize hk : (fun a => false || (decide (0 ≤ a) && decide (a < 0 + d.length))) = kn
  have hkn : ∀ a, a < 0 + d.length → kn a = true := by
    intro a ha; rw [← hk]; simp only [Bool.false_or, Bool.and_eq_true, decide_eq_true_eq]; omega
  clear hk
  show Good true kn (List.replicate n (.use 0 d.length) ++ [.put])
  induction n with
  | zero => exact ⟨rfl, trivial⟩
  | succ n ih =>
    rw [List.replicate_succ]
    exact ⟨rfl, fun a _ ha => hkn a ha, ih⟩

/-- What they write alone is what the tunnel model says they send (C10-C12). -/
theorem own_loop (id : Nat) (reads : List Bytes) (m : Mem) (rest : List Op)
    (hm : readMem m 0 6 = be32 id ++ be16 opData) :
    ∃ m', readMem m' 0 4 = be32 id ∧ own m (loopOps reads ++ rest) = reads.map (fun d => SFrame.enc (.data id d)) ++ own m' rest := by
  induction reads generalizing m with
  | nil =>
    refine ⟨m, ?_, rfl⟩
    have h4 : readMem m 0 6 = readMem m 0 4 ++ readMem m 4 2 := readMem_append m 0 4 2
    rw [h4] at hm
    exact (List.append_inj hm (by simp [length_readMem])).1
  | cons d r ih =>
    have hm2 : readMem (fillMem (fillMem m 10 d) 6 (be32 d.length)) 0 6 = be32 id ++ be16 opData := by
      rw [readMem_fill_outside _ _ _ _ _ (by omega), readMem_fill_outside _ _ _ _ _ (by omega), hm]
    obtain ⟨m', h1, h2⟩ := ih _ hm2
    refine ⟨m', h1, ?_⟩
    simp only [loopOps, List.cons_append, own, h2, List.map_cons]
    congr 1
    have e : 10 + d.length = 6 + (4 + d.length) := by omega
    rw [e, readMem_append, hm2, readMem_append]
    have e4 : readMem (fillMem (fillMem m 10 d) 6 (be32 d.length)) (0 + 6) 4 = be32 d.length := by
      have := readMem_fill (fillMem m 10 d) 6 (be32 d.length)
      simpa [be32_len] using this
    have e5 : readMem (fillMem (fillMem m 10 d) 6 (be32 d.length)) (0 + 6 + 4) d.length = d := by
      rw [readMem_fill_outside _ _ _ _ _ (.inr (by simp [be32_len]))]
      exact readMem_fill m 10 d
    rw [e4, e5]
    simp [SFrame.enc, List.append_assoc]

theorem own_close (id : Nat) (closes : Bool) (m : Mem) (hm : readMem m 0 4 = be32 id) :
    own m (closeOps closes ++ [.put]) = if closes then [SFrame.enc (.closeTask id)] else [] := by
  cases closes with
  | false => rfl
  | true =>
    simp only [closeOps, if_true, List.cons_append, List.nil_append, own]
    have e : readMem (fillMem m 4 (be16 opClose)) 0 6 = readMem (fillMem m 4 (be16 opClose)) 0 4 ++ readMem (fillMem m 4 (be16 opClose)) (0 + 4) 2 :=
      readMem_append _ 0 4 2
    rw [e, readMem_fill_outside _ _ _ _ _ (by omega), hm]
    have := readMem_fill m 4 (be16 opClose)
    simp only [be16_len] at this
    rw [show 0 + 4 = 4 from rfl, this]
    rfl

/-- C122 (what a visitor's goroutine sends): alone, and so by `own_bytes` in any company, the goroutine of a visitor
sends the opening frame with what was read before, one frame per read, and the close frame. -/
theorem server_own (id si : Nat) (first : Bytes) (reads : List Bytes) (closes : Bool) :
    own (fun _ => 0) (serverOps id si first reads closes) =
      SFrame.enc (.open_ id si first) :: reads.map (fun d => SFrame.enc (.data id d)) ++
        (if closes then [SFrame.enc (.closeTask id)] else []) := by
  unfold serverOps
  rw [List.append_assoc, List.append_assoc]
  simp only [List.cons_append, List.nil_append, own]
  generalize hA : fillMem (fillMem (fillMem (fillMem (fun _ => 0) 0 (be32 id)) 4 (be16 opServicesData ++ be16 si)) 12 first) 8 (be32 first.length) = A
  have h04 : readMem A 0 4 = be32 id := by
    rw [← hA, readMem_fill_outside _ _ _ _ _ (by omega), readMem_fill_outside _ _ _ _ _ (by omega),
      readMem_fill_outside _ _ _ _ _ (by omega)]
    have := readMem_fill (fun _ => 0) 0 (be32 id)
    simpa [be32_len] using this
  have h44 : readMem A 4 4 = be16 opServicesData ++ be16 si := by
    rw [← hA, readMem_fill_outside _ _ _ _ _ (by omega), readMem_fill_outside _ _ _ _ _ (by omega)]
    have := readMem_fill (fillMem (fun _ => 0) 0 (be32 id)) 4 (be16 opServicesData ++ be16 si)
    simpa [be16_len] using this
  have h84 : readMem A 8 4 = be32 first.length := by
    rw [← hA]
    have := readMem_fill (fillMem (fillMem (fillMem (fun _ => 0) 0 (be32 id)) 4 (be16 opServicesData ++ be16 si)) 12 first) 8 (be32 first.length)
    simpa [be32_len] using this
  have h12 : readMem A 12 first.length = first := by
    rw [← hA, readMem_fill_outside _ _ _ _ _ (.inr (by simp [be32_len]))]
    exact readMem_fill _ 12 first
  have huse : readMem A 0 (12 + first.length) = SFrame.enc (.open_ id si first) := by
    have e : 12 + first.length = 4 + (4 + (4 + first.length)) := by omega
    rw [e, readMem_append, readMem_append, readMem_append, h04]
    show be32 id ++ (readMem A 4 4 ++ (readMem A 8 4 ++ readMem A 12 first.length)) = _
    rw [h44, h84, h12]
    simp [SFrame.enc, List.append_assoc]
  have hB : readMem (fillMem A 4 (be16 opData)) 0 6 = be32 id ++ be16 opData := by
    have e : readMem (fillMem A 4 (be16 opData)) 0 6 = readMem (fillMem A 4 (be16 opData)) 0 4 ++ readMem (fillMem A 4 (be16 opData)) (0 + 4) 2 :=
      readMem_append _ 0 4 2
    rw [e, readMem_fill_outside _ _ _ _ _ (by omega), h04]
    have := readMem_fill A 4 (be16 opData)
    simp only [be16_len] at this
    rw [show 0 + 4 = 4 from rfl, this]
  obtain ⟨m', h1, h2⟩ := own_loop id reads _ (closeOps closes ++ [.put]) hB
  rw [h2, own_close id closes m' h1, huse]

theorem client_own (id : Nat) (reads : List Bytes) (closes : Bool) :
    own (fun _ => 0) (clientOps id reads closes) =
      reads.map (fun d => CFrame.enc (.data id d)) ++ (if closes then [CFrame.enc (.closeTask id)] else []) := by
  unfold clientOps
  rw [List.append_assoc, List.append_assoc]
  simp only [List.cons_append, List.nil_append, own]
  have hB : readMem (fillMem (fillMem (fun _ => 0) 0 (be32 id)) 4 (be16 opData)) 0 6 = be32 id ++ be16 opData := by
    have e : readMem (fillMem (fillMem (fun _ => 0) 0 (be32 id)) 4 (be16 opData)) 0 6 = readMem (fillMem (fillMem (fun _ => 0) 0 (be32 id)) 4 (be16 opData)) 0 4 ++ readMem (fillMem (fillMem (fun _ => 0) 0 (be32 id)) 4 (be16 opData)) (0 + 4) 2 :=
      readMem_append _ 0 4 2
    rw [e, readMem_fill_outside _ _ _ _ _ (by omega)]
    have h0 := readMem_fill (fun _ => 0) 0 (be32 id)
    have h1 := readMem_fill (fillMem (fun _ => 0) 0 (be32 id)) 4 (be16 opData)
    simp only [be16_len, be32_len] at h0 h1
    rw [show 0 + 4 = 4 from rfl, h0, h1]
  obtain ⟨m', h1, h2⟩ := own_loop id reads _ (closeOps closes ++ [.put]) hB
  rw [h2, own_close id closes m' h1]
  rfl

/-! ## The HTTP task -/

section Host
open Client.HostRewrite

theorem src_own (pooled : Bool) (off : Nat) (d : Bytes) (m : Mem) (hp : pooled = true → readMem m off d.length = d)
    (rest : List Op) : own m (src pooled off d :: rest) = d :: own m rest := by
  cases pooled with
  | false => rfl
  | true => simp only [src, if_true, own, hp rfl]

theorem src_endView (pooled : Bool) (off : Nat) (d : Bytes) (m : Mem) (rest : List Op) :
    endView m (src pooled off d :: rest) = endView m rest := by
  cases pooled <;> rfl

/-- The new header line and the bytes held back are in the buffer. -/
def VI (h : Bytes) (s : Client.HostRewrite.St) (moved : Bool) (m : Mem) : Prop :=
  readMem m 0 h.length = h ∧ (moved = false → ∀ t, s.temp = some t → readMem m h.length t.length = t)

theorem loop_refines (h : Bytes) (pooled moved : Bool) (fuel : Nat) (off : Nat) (p : Bytes) (m : Mem)
    (hh : readMem m 0 h.length = h) (hp : pooled = true → readMem m off p.length = p) :
    (own m (hostLoopOps h pooled moved fuel off p)).flatten = (loop h fuel p).1 ∧
      VI h (loop h fuel p).2.1 moved (endView m (hostLoopOps h pooled moved fuel off p)) := by
  have hempty : ∀ (b c : Bool), VI h { temp := some [], skipping := b, passing := c } moved m := by
    intro b c
    refine ⟨hh, fun _ t ht => ?_⟩
    simp only [Option.some.injEq] at ht
    subst ht; rfl
  induction fuel generalizing off p with
  | zero => exact ⟨rfl, hempty _ _⟩
  | succ fuel ih =>
    unfold hostLoopOps loop
    by_cases hpe : p = []
    · simp only [hpe, if_true]; exact ⟨rfl, hempty _ _⟩
    · simp only [hpe, if_false]
      cases hv : isGoodToWrite p with
      | good =>
        simp only
        cases hc : cutLine p with
        | none =>
          simp only
          rw [src_own pooled off p m hp, src_endView]
          exact ⟨by simp [own], hempty _ _⟩
        | some x =>
          obtain ⟨l, r⟩ := x
          obtain ⟨_, _, _, e⟩ := cutLine_some hc
          simp only
          have hl : pooled = true → readMem m off l.length = l ∧ readMem m (off + l.length) r.length = r := by
            intro hpo
            have h1 := hp hpo
            rw [e, List.length_append, readMem_append] at h1
            exact List.append_inj h1 (by simp [length_readMem])
          rw [src_own pooled off l m (fun hpo => (hl hpo).1), src_endView]
          obtain ⟨i1, i2⟩ := ih (off + l.length) r (fun hpo => (hl hpo).2)
          exact ⟨by simp [i1], i2⟩
      | unsure =>
        simp only
        cases moved with
        | true => exact ⟨rfl, hh, fun hf => absurd hf (by simp)⟩
        | false =>
          refine ⟨rfl, ?_, fun _ t ht => ?_⟩
          · simp only [Bool.false_eq_true, if_false, endView]
            rw [readMem_fill_outside _ _ _ _ _ (by omega)]; exact hh
          · simp only [Option.some.injEq] at ht
            subst ht
            simp only [Bool.false_eq_true, if_false, endView]
            exact readMem_fill m h.length p
      | replace =>
        simp only
        cases hc : cutLine p with
        | none =>
          simp only [own, endView, hh]
          exact ⟨by simp, hempty _ _⟩
        | some x =>
          obtain ⟨l, r⟩ := x
          obtain ⟨_, _, _, e⟩ := cutLine_some hc
          simp only
          have hl : pooled = true → readMem m (off + l.length) r.length = r := by
            intro hpo
            have h1 := hp hpo
            rw [e, List.length_append, readMem_append] at h1
            exact (List.append_inj h1 (by simp [length_readMem])).2
          by_cases hr : r = []
          · simp only [hr, if_true, own, endView, hh]
            exact ⟨by simp, hh, fun _ t ht => absurd ht (by simp)⟩
          · simp only [hr, if_false, own, endView]
            rw [src_own pooled _ r m hl, src_endView]
            exact ⟨by simp [own, hh], hh, fun _ t ht => absurd ht (by simp)⟩

theorem atLine_refines (h : Bytes) (moved : Bool) (t p : Bytes) (m : Mem) (hh : readMem m 0 h.length = h)
    (ht : moved = false → readMem m h.length t.length = t) :
    (own m (atLineOps h moved t p).1).flatten = (atLine h t p).1 ∧
      VI h (atLine h t p).2.1 (atLineOps h moved t p).2 (endView m (atLineOps h moved t p).1) := by
  unfold atLineOps atLine
  by_cases h5 : p.length + t.length < 5
  · simp only [h5, if_true]
    cases moved with
    | true => exact ⟨rfl, hh, fun hf => absurd hf (by simp)⟩
    | false =>
      refine ⟨rfl, ?_, fun _ t' ht' => ?_⟩
      · simp only [Bool.false_eq_true, if_false, endView]
        rw [readMem_fill_outside _ _ _ _ _ (by omega)]; exact hh
      · simp only [Option.some.injEq] at ht'
        subst ht'
        simp only [Bool.false_eq_true, if_false, endView, List.length_append]
        exact readMem_fill_after m h.length t p (ht rfl)
  · simp only [h5, if_false]
    by_cases ht0 : t.length > 0
    · simp only [ht0, if_true]
      by_cases hm : moved = true ∨ 4096 < h.length + t.length + p.length
      · simp only [hm, if_true]
        exact loop_refines h false true _ 0 (t ++ p) m hh (fun hf => absurd hf (by simp))
      · simp only [hm, if_false, own, endView]
        have hmf : moved = false := by cases moved with
          | false => rfl
          | true => exact absurd (.inl rfl) hm
        refine loop_refines h true false _ h.length (t ++ p) _ ?_ ?_
        · rw [readMem_fill_outside _ _ _ _ _ (by omega)]; exact hh
        · intro _
          rw [List.length_append]
          exact readMem_fill_after m h.length t p (ht hmf)
    · simp only [ht0, if_false]
      exact loop_refines h false moved _ 0 p m hh (fun hf => absurd hf (by simp))

theorem write_refines (h : Bytes) (s : Client.HostRewrite.St) (moved : Bool) (p : Bytes) (m : Mem) (hv : VI h s moved m) :
    (own m (hostWriteOps h s moved p).1).flatten = (write h s p).1 ∧
      VI h (write h s p).2.1 (hostWriteOps h s moved p).2 (endView m (hostWriteOps h s moved p).1) := by
  obtain ⟨tmp, sk, pa⟩ := s
  obtain ⟨hh, ht⟩ := hv
  simp only at ht
  cases tmp with
  | none =>
    simp only [hostWriteOps, write]
    exact ⟨by simp [own], hh, fun _ t e => absurd e (by simp)⟩
  | some t =>
    have ht' : moved = false → readMem m h.length t.length = t := fun hm => ht hm t rfl
    have hs : ∀ b c : Bool, VI h { temp := some t, skipping := b, passing := c } moved m :=
      fun b c => ⟨hh, fun hm t' e => ht hm t' e⟩
    have hnone : VI h { temp := none } moved m := ⟨hh, fun _ t e => absurd e (by simp)⟩
    cases sk with
    | true =>
      simp only [hostWriteOps, write, if_true]
      cases hc : cutLine p with
      | none => exact ⟨rfl, hs _ _⟩
      | some x =>
        obtain ⟨l, r⟩ := x
        simp only
        by_cases hle : p.length ≤ l.length
        · simp only [hle, if_true]; exact ⟨rfl, hnone⟩
        · simp only [hle, if_false]; exact ⟨by simp [own], hnone⟩
    | false =>
      cases pa with
      | true =>
        simp only [hostWriteOps, write, if_true, Bool.false_eq_true, if_false]
        cases hc : cutLine p with
        | none => exact ⟨by simp [own], hs _ _⟩
        | some x =>
          obtain ⟨l, r⟩ := x
          simp only
          by_cases hle : r.length ≤ 0
          · simp only [hle, if_true]; exact ⟨by simp [own], hs _ _⟩
          · simp only [hle, if_false]
            obtain ⟨i1, i2⟩ := atLine_refines h moved t r m hh ht'
            exact ⟨by simp [own, i1], i2⟩
      | false =>
        simp only [hostWriteOps, write, Bool.false_eq_true, if_false]
        exact atLine_refines h moved t p m hh ht'

theorem endView_append (p q : List Op) (m : Mem) : endView m (p ++ q) = endView (endView m p) q := by
  induction p generalizing m with
  | nil => rfl
  | cons o r ih => cases o <;> simp [endView, ih]

theorem writes_refines (h : Bytes) (ps : List Bytes) (s : Client.HostRewrite.St) (moved : Bool) (m : Mem) (hv : VI h s moved m) :
    (own m (hostWritesOps h s moved ps)).flatten = (writes h s ps).1 := by
  induction ps generalizing s moved m with
  | nil => rfl
  | cons p ps ih =>
    obtain ⟨i1, i2⟩ := write_refines h s moved p m hv
    simp only [hostWritesOps, writes, own_append, List.flatten_append, i1]
    rw [ih _ _ _ i2]

/-- C122 (alone the task is right): the program of the HTTP task, run with nobody else, writes exactly what the model of
C30 says, for every header line and every segmentation. So C30 holds wherever the rules are obeyed. -/
theorem host_own (h : Bytes) (pieces : List Bytes) :
    (own (fun _ => 0) (hostOps h pieces)).flatten = (writes h { temp := some [] } pieces).1 := by
  simp only [hostOps, own]
  refine writes_refines h pieces _ false _ ⟨?_, fun _ t ht => ?_⟩
  · exact readMem_fill _ 0 h
  · simp only [Option.some.injEq] at ht; subst ht; rfl

/-! When does it obey the rules? -/

/-- The addresses filled after these operations. -/
def endKn (k : Nat → Bool) : List Op → (Nat → Bool)
  | [] => k
  | .get :: r => endKn (fun _ => false) r
  | .fill off d :: r => endKn (fun a => k a || (decide (off ≤ a) && decide (a < off + d.length))) r
  | .put :: r => endKn (fun _ => false) r
  | .use _ _ :: r => endKn k r
  | .send _ :: r => endKn k r

theorem good_append (p q : List Op) (held : Bool) (k : Nat → Bool) :
    Good held k (p ++ q) ↔ Good held k p ∧ Good (endHeld held p) (endKn k p) q := by
  induction p generalizing held k with
  | nil => simp [Good, endHeld, endKn]
  | cons o r ih =>
    cases o with
    | get => simp only [List.cons_append, Good, endHeld, endKn, ih, and_assoc]
    | put => simp only [List.cons_append, Good, endHeld, endKn, ih, and_assoc]
    | send d => simp only [List.cons_append, Good, endHeld, endKn, ih, and_assoc]
    | use off len => simp only [List.cons_append, Good, endHeld, endKn, ih, and_assoc]
    | fill off d => simp only [List.cons_append, Good, endHeld, endKn, ih, and_assoc]

theorem endHeld_append (p q : List Op) (held : Bool) : endHeld held (p ++ q) = endHeld (endHeld held p) q := by
  induction p generalizing held with
  | nil => rfl
  | cons o r ih => cases o <;> simp [endHeld, ih]

theorem endKn_append (p q : List Op) (k : Nat → Bool) : endKn k (p ++ q) = endKn (endKn k p) q := by
  induction p generalizing k with
  | nil => rfl
  | cons o r ih => cases o <;> simp [endKn, ih]

/-- What the task relies on between two pieces. -/
def GI (h : Bytes) (s : Client.HostRewrite.St) (moved held : Bool) (k : Nat → Bool) : Prop :=
  ∀ t, s.temp = some t → held = true ∧ (∀ a, a < h.length → k a = true) ∧
    (moved = false → ∀ a, h.length ≤ a → a < h.length + t.length → k a = true)

/-- The operations end by giving the buffer back and then writing from it. -/
def Late (held : Bool) (k : Nat → Bool) (ops : List Op) : Prop :=
  ∃ pre off len, ops = pre ++ [.put, .use off len] ∧ Good held k pre ∧ endHeld held pre = true ∧ 0 < len

/-- The operations obey the rules and leave things in order for state `s'`. -/
def Fine (h : Bytes) (s' : Client.HostRewrite.St) (moved' held : Bool) (k : Nat → Bool) (ops : List Op) : Prop :=
  Good held k ops ∧ GI h s' moved' (endHeld held ops) (endKn k ops)

theorem fine_cons {h : Bytes} {s' : Client.HostRewrite.St} {moved' held : Bool} {k : Nat → Bool} {ops : List Op} (o : Op)
    (ho : (∃ d, o = .send d) ∨ (∃ off len, o = .use off len ∧ held = true ∧ ∀ a, off ≤ a → a < off + len → k a = true))
    (hf : Fine h s' moved' held k ops) : Fine h s' moved' held k (o :: ops) := by
  rcases ho with ⟨d, rfl⟩ | ⟨off, len, rfl, h1, h2⟩
  · exact ⟨hf.1, hf.2⟩
  · exact ⟨⟨h1, h2, hf.1⟩, hf.2⟩

theorem late_cons {held : Bool} {k : Nat → Bool} {ops : List Op} (o : Op)
    (ho : (∃ d, o = .send d) ∨ (∃ off len, o = .use off len ∧ held = true ∧ ∀ a, off ≤ a → a < off + len → k a = true))
    (hf : Late held k ops) : Late held k (o :: ops) := by
  obtain ⟨pre, off', len', e1, e2, e3, e4⟩ := hf
  rcases ho with ⟨d, rfl⟩ | ⟨off, len, rfl, h1, h2⟩
  · exact ⟨.send d :: pre, off', len', by rw [e1]; rfl, e2, e3, e4⟩
  · exact ⟨.use off len :: pre, off', len', by rw [e1]; rfl, ⟨h1, h2, e2⟩, e3, e4⟩

theorem src_ok (pooled : Bool) (off : Nat) (d : Bytes) (k : Nat → Bool)
    (hp : pooled = true → ∀ a, off ≤ a → a < off + d.length → k a = true) :
    (∃ d', src pooled off d = .send d') ∨
      (∃ o l, src pooled off d = .use o l ∧ true = true ∧ ∀ a, o ≤ a → a < o + l → k a = true) := by
  cases pooled with
  | false => exact .inl ⟨d, rfl⟩
  | true => exact .inr ⟨off, d.length, rfl, rfl, hp rfl⟩

theorem loop_rules (h : Bytes) (pooled moved : Bool) (fuel off : Nat) (p : Bytes) (k : Nat → Bool)
    (hk : ∀ a, a < h.length → k a = true) (hp : pooled = true → ∀ a, off ≤ a → a < off + p.length → k a = true) :
    Fine h (loop h fuel p).2.1 moved true k (hostLoopOps h pooled moved fuel off p) ∨
      (pooled = true ∧ Late true k (hostLoopOps h pooled moved fuel off p)) := by
  have hempty : ∀ (b c : Bool), GI h { temp := some [], skipping := b, passing := c } moved true k := by
    intro b c t ht
    simp only [Option.some.injEq] at ht
    subst ht
    exact ⟨rfl, hk, fun _ a h1 h2 => absurd h2 (by simp; omega)⟩
  have hhost : (∃ d, Op.use 0 h.length = .send d) ∨
      (∃ o l, Op.use 0 h.length = .use o l ∧ true = true ∧ ∀ a, o ≤ a → a < o + l → k a = true) :=
    .inr ⟨0, h.length, rfl, rfl, fun a _ ha => hk a (by omega)⟩
  induction fuel generalizing off p with
  | zero => exact .inl ⟨trivial, hempty _ _⟩
  | succ fuel ih =>
    unfold hostLoopOps loop
    by_cases hpe : p = []
    · simp only [hpe, if_true]; exact .inl ⟨trivial, hempty _ _⟩
    · simp only [hpe, if_false]
      cases hv : isGoodToWrite p with
      | good =>
        simp only
        cases hc : cutLine p with
        | none => exact .inl (fine_cons _ (src_ok pooled off p k hp) ⟨trivial, hempty _ _⟩)
        | some x =>
          obtain ⟨l, r⟩ := x
          obtain ⟨_, _, _, e⟩ := cutLine_some hc
          have elen : p.length = l.length + r.length := by rw [e, List.length_append]
          simp only
          have hl : pooled = true → ∀ a, off ≤ a → a < off + l.length → k a = true :=
            fun hpo a h1 h2 => hp hpo a h1 (by omega)
          rcases ih (off + l.length) r (fun hpo a h1 h2 => hp hpo a (by omega) (by omega)) with i | ⟨i1, i2⟩
          · exact .inl (fine_cons _ (src_ok pooled off l k hl) i)
          · exact .inr ⟨i1, late_cons _ (src_ok pooled off l k hl) i2⟩
      | unsure =>
        simp only
        cases moved with
        | true =>
          refine .inl ⟨trivial, ?_⟩
          intro t ht
          exact ⟨rfl, hk, fun hf => absurd hf (by simp)⟩
        | false =>
          refine .inl ⟨⟨rfl, trivial⟩, ?_⟩
          intro t ht
          simp only [Option.some.injEq] at ht
          subst ht
          refine ⟨rfl, fun a ha => ?_, fun _ a h1 h2 => ?_⟩
          · simp only [Bool.false_eq_true, if_false, endKn, Bool.or_eq_true]; exact .inl (hk a ha)
          · simp only [Bool.false_eq_true, if_false, endKn, Bool.or_eq_true, Bool.and_eq_true, decide_eq_true_eq]
            exact .inr ⟨h1, h2⟩
      | replace =>
        simp only
        cases hc : cutLine p with
        | none => exact .inl (fine_cons _ hhost ⟨trivial, hempty _ _⟩)
        | some x =>
          obtain ⟨l, r⟩ := x
          simp only
          by_cases hr : r = []
          · simp only [hr, if_true]
            exact .inl (fine_cons _ hhost ⟨⟨rfl, trivial⟩, fun t ht => absurd ht (by simp)⟩)
          · simp only [hr, if_false]
            cases pooled with
            | false =>
              exact .inl (fine_cons _ hhost ⟨⟨rfl, trivial⟩, fun t ht => absurd ht (by simp)⟩)
            | true =>
              have hpos : 0 < r.length := by
                cases hx : r with
                | nil => exact absurd hx hr
                | cons _ _ => simp
              exact .inr ⟨rfl, late_cons _ hhost ⟨[], off + l.length, r.length, rfl, trivial, rfl, hpos⟩⟩

theorem atLine_rules (h : Bytes) (moved : Bool) (t p : Bytes) (k : Nat → Bool) (hk : ∀ a, a < h.length → k a = true)
    (ht : moved = false → ∀ a, h.length ≤ a → a < h.length + t.length → k a = true) :
    Fine h (atLine h t p).2.1 (atLineOps h moved t p).2 true k (atLineOps h moved t p).1 ∨
      (t ≠ [] ∧ Late true k (atLineOps h moved t p).1) := by
  unfold atLineOps atLine
  by_cases h5 : p.length + t.length < 5
  · simp only [h5, if_true]
    cases moved with
    | true =>
      refine .inl ⟨trivial, ?_⟩
      intro t' ht'
      exact ⟨rfl, hk, fun hf => absurd hf (by simp)⟩
    | false =>
      refine .inl ⟨⟨rfl, trivial⟩, ?_⟩
      intro t' ht'
      simp only [Option.some.injEq] at ht'
      subst ht'
      refine ⟨rfl, fun a ha => ?_, fun _ a h1 h2 => ?_⟩
      · simp only [Bool.false_eq_true, if_false, endKn, Bool.or_eq_true]; exact .inl (hk a ha)
      · simp only [Bool.false_eq_true, if_false, endKn, Bool.or_eq_true, Bool.and_eq_true, decide_eq_true_eq]
        rw [List.length_append] at h2
        by_cases h3 : a < h.length + t.length
        · exact .inl (ht rfl a h1 h3)
        · exact .inr ⟨by omega, by omega⟩
  · simp only [h5, if_false]
    by_cases ht0 : t.length > 0
    · have htne : t ≠ [] := by intro e; rw [e] at ht0; simp at ht0
      simp only [ht0, if_true]
      by_cases hm : moved = true ∨ 4096 < h.length + t.length + p.length
      · simp only [hm, if_true]
        rcases loop_rules h false true ((t ++ p).length + 1) 0 (t ++ p) k hk (fun hf => absurd hf (by simp)) with i | ⟨i, _⟩
        · exact .inl i
        · exact absurd i (by simp)
      · simp only [hm, if_false]
        have hmf : moved = false := by cases moved with
          | false => rfl
          | true => exact absurd (.inl rfl) hm
        have hk' : ∀ a, a < h.length →
            (fun a => k a || (decide (h.length + t.length ≤ a) && decide (a < h.length + t.length + p.length))) a = true := by
          intro a ha; simp only [Bool.or_eq_true]; exact .inl (hk a ha)
        rcases loop_rules h true false ((t ++ p).length + 1) h.length (t ++ p)
          (fun a => k a || (decide (h.length + t.length ≤ a) && decide (a < h.length + t.length + p.length))) hk'
          (fun _ a h1 h2 => by
            simp only [Bool.or_eq_true, Bool.and_eq_true, decide_eq_true_eq]
            rw [List.length_append] at h2
            by_cases h3 : a < h.length + t.length
            · exact .inl (ht hmf a h1 h3)
            · exact .inr ⟨by omega, by omega⟩) with i | ⟨_, i⟩
        · exact .inl ⟨⟨rfl, i.1⟩, i.2⟩
        · obtain ⟨pre, off, len, e1, e2, e3, e4⟩ := i
          exact .inr ⟨htne, .fill (h.length + t.length) p :: pre, off, len, by rw [e1]; rfl, ⟨rfl, e2⟩, e3, e4⟩
    · simp only [ht0, if_false]
      rcases loop_rules h false moved (p.length + 1) 0 p k hk (fun hf => absurd hf (by simp)) with i | ⟨i, _⟩
      · exact .inl i
      · exact absurd i (by simp)

theorem gi_none (h : Bytes) (moved held : Bool) (k : Nat → Bool) (b c : Bool) :
    GI h { temp := none, skipping := b, passing := c } moved held k := fun t ht => absurd ht (by simp)

theorem write_rules (h : Bytes) (s : Client.HostRewrite.St) (moved held : Bool) (k : Nat → Bool) (p : Bytes) (hg : GI h s moved held k) :
    Fine h (write h s p).2.1 (hostWriteOps h s moved p).2 held k (hostWriteOps h s moved p).1 ∨
      ((∃ t, t ≠ [] ∧ s.temp = some t ∧ s.skipping = false) ∧ Late held k (hostWriteOps h s moved p).1) := by
  obtain ⟨tmp, sk, pa⟩ := s
  cases tmp with
  | none =>
    simp only [hostWriteOps, write]
    exact .inl ⟨trivial, gi_none _ _ _ _ _ _⟩
  | some t =>
    obtain ⟨hh, hk, ht⟩ := hg t rfl
    subst hh
    have hs : ∀ b c : Bool, GI h { temp := some t, skipping := b, passing := c } moved true k := fun b c => hg
    cases sk with
    | true =>
      simp only [hostWriteOps, write, if_true]
      cases hc : cutLine p with
      | none => exact .inl ⟨trivial, hs _ _⟩
      | some x =>
        obtain ⟨l, r⟩ := x
        simp only
        by_cases hle : p.length ≤ l.length
        · simp only [hle, if_true]; exact .inl ⟨trivial, gi_none _ _ _ _ _ _⟩
        · simp only [hle, if_false]; exact .inl ⟨trivial, gi_none _ _ _ _ _ _⟩
    | false =>
      cases pa with
      | true =>
        simp only [hostWriteOps, write, if_true, Bool.false_eq_true, if_false]
        cases hc : cutLine p with
        | none => exact .inl ⟨trivial, hs _ _⟩
        | some x =>
          obtain ⟨l, r⟩ := x
          simp only
          by_cases hle : r.length ≤ 0
          · simp only [hle, if_true]; exact .inl ⟨trivial, hs _ _⟩
          · simp only [hle, if_false]
            rcases atLine_rules h moved t r k hk ht with i | ⟨i1, i2⟩
            · exact .inl (fine_cons _ (.inl ⟨l, rfl⟩) i)
            · exact .inr ⟨⟨t, i1, by simp, by simp⟩, late_cons _ (.inl ⟨l, rfl⟩) i2⟩
      | false =>
        simp only [hostWriteOps, write, Bool.false_eq_true, if_false]
        rcases atLine_rules h moved t p k hk ht with i | ⟨i1, i2⟩
        · exact .inl i
        · exact .inr ⟨⟨t, i1, by simp, by simp⟩, i2⟩

theorem writes_rules (h : Bytes) (ps : List Bytes) (s : Client.HostRewrite.St) (moved held : Bool) (k : Nat → Bool)
    (hg : GI h s moved held k) :
    Good held k (hostWritesOps h s moved ps) ∨
      ∃ pre off len post, hostWritesOps h s moved ps = pre ++ .put :: .use off len :: post ∧ Good held k pre ∧
        endHeld held pre = true ∧ 0 < len := by
  induction ps generalizing s moved held k with
  | nil => exact .inl trivial
  | cons p ps ih =>
    rcases write_rules h s moved held k p hg with i | ⟨_, pre, off, len, e1, e2, e3, e4⟩
    · rcases ih _ _ _ _ i.2 with j | ⟨pre, off, len, post, e1, e2, e3, e4⟩
      · refine .inl ?_
        simp only [hostWritesOps]
        exact (good_append _ _ _ _).2 ⟨i.1, j⟩
      · refine .inr ⟨(hostWriteOps h s moved p).1 ++ pre, off, len, post, ?_, (good_append _ _ _ _).2 ⟨i.1, e2⟩, ?_, e4⟩
        · simp only [hostWritesOps, e1, List.append_assoc]
        · rw [endHeld_append]; exact e3
    · refine .inr ⟨pre, off, len, hostWritesOps h (write h s p).2.1 (hostWriteOps h s moved p).2 ps, ?_, e2, e3, e4⟩
      simp only [hostWritesOps, e1]
      simp

theorem gi_start (h : Bytes) :
    GI h { temp := some [] } false true (fun a => false || (decide (0 ≤ a) && decide (a < 0 + h.length))) := by
  intro t ht
  simp only [Option.some.injEq] at ht
  subst ht
  refine ⟨rfl, fun a ha => ?_, fun _ a h1 h2 => absurd h2 (by simp; omega)⟩
  simp only [Bool.false_or, Bool.and_eq_true, decide_eq_true_eq]; omega

/-- C122 (HTTP tasks, exactly): for every header line and every segmentation of the request the task either obeys the
rules, or it writes from its buffer after having given it back; and in the second case another user that obeys
the rules can make the service receive bytes that are not from this request. -/
theorem host_obeys_or_leaks (h : Bytes) (pieces : List Bytes) :
    Rules (hostOps h pieces) ∨
      ∃ q evs s', Rules q ∧ run (two (hostOps h pieces) q) evs = some s' ∧
        ¬ (s'.user 0).out <+: own (fun _ => 0) (hostOps h pieces) := by
  rcases writes_rules h pieces { temp := some [] } false true _ (gi_start h) with g | ⟨pre, off, len, post, e1, e2, e3, e4⟩
  · exact .inl ⟨rfl, rfl, g⟩
  · right
    have e : hostOps h pieces = (.get :: .fill 0 h :: pre) ++ .put :: .use off len :: post := by
      simp only [hostOps, e1, List.cons_append]
    rw [e]
    exact use_after_put_leaks (.get :: .fill 0 h :: pre) post off len ⟨rfl, rfl, e2⟩ e3 e4

/-- No piece but the last ends one to four bytes after the beginning of a line. -/
def NoShortStart (pieces : List Bytes) : Prop :=
  ∀ done next rest, pieces = done ++ next :: rest → ¬ ∃ a t, done.flatten = a ++ t ∧ LineStart a ∧ t ≠ [] ∧ t.length < 5

theorem writes_obey (h : Bytes) (ps : List Bytes) (s : Client.HostRewrite.St) (moved held : Bool) (k : Nat → Bool)
    (hg : GI h s moved held k) (B out : Bytes) (hr : R h B out s)
    (hn : ∀ done next rest, ps = done ++ next :: rest →
      ¬ ∃ a t, B ++ done.flatten = a ++ t ∧ LineStart a ∧ t ≠ [] ∧ t.length < 5) :
    Good held k (hostWritesOps h s moved ps) := by
  induction ps generalizing s moved held k B out with
  | nil => trivial
  | cons p ps ih =>
    simp only [hostWritesOps]
    rcases write_rules h s moved held k p hg with i | ⟨⟨t, ht1, ht2, ht3⟩, _⟩
    · refine (good_append _ _ _ _).2 ⟨i.1, ih _ _ _ _ i.2 (B ++ p) _ (write_spec h p hr).1 ?_⟩
      intro done next rest e
      have := hn (p :: done) next rest (by rw [e]; rfl)
      simpa [List.append_assoc] using this
    · exfalso
      refine hn [] p ps rfl ?_
      cases hr with
      | start out t' h1 h2 h3 =>
        simp only [Option.some.injEq] at ht2
        subst ht2
        exact ⟨out, t', by simp, h1, ht1, h3⟩
      | passing => simp only [Option.some.injEq] at ht2; exact absurd ht2.symm ht1
      | skipping => simp at ht3
      | done => simp at ht2

/-- C122 (HTTP tasks): the task obeys the rules if no piece ends within the first bytes of a line. -/
theorem host_obeys_partial (h : Bytes) (pieces : List Bytes) (hn : NoShortStart pieces) : Rules (hostOps h pieces) := by
  refine ⟨rfl, rfl, writes_obey h pieces _ false true _ (gi_start h) [] [] (start_R h) ?_⟩
  intro done next rest e
  simpa using hn done next rest e

/-! The finding -/

theorem cutLine_line (l r : Bytes) (hl : (10 : UInt8) ∉ l) : cutLine (l ++ 10 :: r) = some (l ++ [10], r) := by
  induction l with
  | nil => simp [cutLine]
  | cons a t ih =>
    have ha : a ≠ 10 := fun e => hl (by simp [e])
    simp only [List.cons_append, cutLine, ha, if_false, ih (fun hm => hl (List.mem_cons_of_mem _ hm)), Option.map_some]

/-- C122 (finding): a request line `l` of at least four bytes, and a piece that ends `k` bytes (one to four) into the
Host line; the next piece has the rest of that line and something after it, and all fits the buffer. Then the buffer is
given back before what follows is written from it, and the service can receive bytes of another connection. -/
theorem host_leaks (h l v rest : Bytes) (k : Nat) (hl : (10 : UInt8) ∉ l) (hv : (10 : UInt8) ∉ v) (hk : 1 ≤ k ∧ k ≤ 4)
    (hl4 : 4 ≤ l.length) (hgood : ¬ HOST <+: l ++ [10]) (hrest : rest ≠ [])
    (hfit : h.length + (5 + v.length + 1 + rest.length) ≤ 4096) :
    ∃ q evs s', Rules q ∧
      run (two (hostOps h [l ++ 10 :: HOST.take k, HOST.drop k ++ v ++ 10 :: rest]) q) evs = some s' ∧
      ¬ (s'.user 0).out <+: own (fun _ => 0) (hostOps h [l ++ 10 :: HOST.take k, HOST.drop k ++ v ++ 10 :: rest]) := by
  have hlen : (HOST.take k).length = k := by
    rw [List.length_take]; simp only [HOST, List.length_cons, List.length_nil]; omega
  have htne : HOST.take k ≠ [] := by intro e; rw [e] at hlen; simp at hlen; omega
  have hun : isGoodToWrite (HOST.take k) = .unsure := by
    have : k = 1 ∨ k = 2 ∨ k = 3 ∨ k = 4 := by omega
    rcases this with rfl | rfl | rfl | rfl <;> decide
  have hnocut : cutLine (HOST.take k) = none := cutLine_none.2 (fun hm => host_no_nl (List.mem_of_mem_take hm))
  have hcat : HOST.take k ++ (HOST.drop k ++ v ++ 10 :: rest) = HOST ++ v ++ 10 :: rest := by
    rw [List.append_assoc, ← List.append_assoc, List.take_append_drop, List.append_assoc]
  have hrep : isGoodToWrite (HOST ++ v ++ 10 :: rest) = .replace := by
    unfold isGoodToWrite
    have hl5 : (HOST ++ v ++ 10 :: rest).length > 5 := by simp [HOST]; omega
    simp only [hl5, if_true]
    have : (HOST ++ v ++ 10 :: rest).take 5 = HOST.take 5 := by simp [HOST]
    simp only [this, if_true, Nat.lt_irrefl, if_false]
  have hgood' : isGoodToWrite (l ++ 10 :: HOST.take k) = .good := by
    unfold isGoodToWrite
    have hl5 : (l ++ 10 :: HOST.take k).length > 5 := by
      simp only [List.length_append, List.length_cons, hlen]; omega
    simp only [hl5, if_true]
    have h5 : (l ++ 10 :: HOST.take k).take 5 = (l ++ [10]).take 5 := by
      rw [show l ++ 10 :: HOST.take k = (l ++ [10]) ++ HOST.take k by simp]
      exact List.take_append_of_le_length (by simp; omega)
    rw [h5, show HOST.take 5 = HOST from rfl]
    have : (l ++ [10]).take 5 ≠ HOST := fun e => hgood (e ▸ List.take_prefix _ _)
    simp only [this, if_false]
  have hcut2 : cutLine (HOST ++ v ++ 10 :: rest) = some (HOST ++ v ++ [10], rest) :=
    cutLine_line (HOST ++ v) rest (by simp only [List.mem_append, not_or]; exact ⟨host_no_nl, hv⟩)
  have hcut1 := cutLine_line l (HOST.take k) hl
  have h1ne : l ++ 10 :: HOST.take k ≠ [] := by simp
  have h5 : ¬ ((l ++ 10 :: HOST.take k).length + 0 < 5) := by simp [hlen]; omega
  have hw1 : (write h { temp := some [] } (l ++ 10 :: HOST.take k)).2.1 = { temp := some (HOST.take k) } := by
    have e1 : ∀ n, loop h (n + 2) (l ++ 10 :: HOST.take k) =
        (l ++ [10], { temp := some (HOST.take k) }, (l ++ [10]).length + (HOST.take k).length) := by
      intro n; simp [loop, hgood', hcut1, hun, htne]
    obtain ⟨n, hn⟩ : ∃ n, (l ++ 10 :: HOST.take k).length + 1 = n + 2 :=
      ⟨(l ++ 10 :: HOST.take k).length - 1, by simp only [List.length_append, List.length_cons]; omega⟩
    simp only [write, Bool.false_eq_true, if_false, atLine, List.length_nil, h5, Nat.lt_irrefl, gt_iff_lt, hn, e1]
  have ho1 : hostWriteOps h { temp := some [] } false (l ++ 10 :: HOST.take k) =
      ([.send (l ++ [10]), .fill h.length (HOST.take k)], false) := by
    have e1 : ∀ n, hostLoopOps h false false (n + 2) 0 (l ++ 10 :: HOST.take k) =
        [.send (l ++ [10]), .fill h.length (HOST.take k)] := by
      intro n; simp [hostLoopOps, hgood', hcut1, hun, htne, src]
    obtain ⟨n, hn⟩ : ∃ n, (l ++ 10 :: HOST.take k).length + 1 = n + 2 :=
      ⟨(l ++ 10 :: HOST.take k).length - 1, by simp only [List.length_append, List.length_cons]; omega⟩
    simp only [hostWriteOps, Bool.false_eq_true, if_false, atLineOps, List.length_nil, h5, Nat.lt_irrefl, gt_iff_lt, hn, e1]
  have hp2 : (HOST.drop k ++ v ++ 10 :: rest).length = 5 - k + v.length + 1 + rest.length := by
    simp [HOST]; omega
  have ho2 : (hostWriteOps h { temp := some (HOST.take k) } false (HOST.drop k ++ v ++ 10 :: rest)).1 =
      [.fill (h.length + k) (HOST.drop k ++ v ++ 10 :: rest), .use 0 h.length, .put,
        .use (h.length + (HOST ++ v ++ [10]).length) rest.length] := by
    have e0 : ¬ ((HOST.drop k ++ v ++ 10 :: rest).length + (HOST.take k).length < 5) := by rw [hp2, hlen]; omega
    have e2 : (HOST.take k).length > 0 := by omega
    have e3 : ¬ (False ∨ 4096 < h.length + (HOST.take k).length + (HOST.drop k ++ v ++ 10 :: rest).length) := by
      rw [hp2, hlen]; simp; omega
    have ene : HOST ++ v ++ 10 :: rest ≠ [] := by simp
    simp only [hostWriteOps, Bool.false_eq_true, if_false, atLineOps, e0, e2, if_true]
    rw [if_neg e3]
    simp only [hcat, hostLoopOps, ene, if_false, hrep, hcut2, hrest, src, if_true, hlen]
  have hops : hostOps h [l ++ 10 :: HOST.take k, HOST.drop k ++ v ++ 10 :: rest] =
      [.get, .fill 0 h, .send (l ++ [10]), .fill h.length (HOST.take k),
        .fill (h.length + k) (HOST.drop k ++ v ++ 10 :: rest), .use 0 h.length] ++
      .put :: .use (h.length + (HOST ++ v ++ [10]).length) rest.length :: [] := by
    simp only [hostOps, hostWritesOps, hw1, ho1, ho2, List.append_nil, List.cons_append, List.nil_append]
  rw [hops]
  refine use_after_put_leaks _ _ _ _ ⟨rfl, rfl, rfl, rfl, rfl, ?_, trivial⟩ rfl ?_
  · intro a _ ha
    simp only [Bool.or_eq_true, Bool.and_eq_true, decide_eq_true_eq, Bool.false_eq_true, false_or]
    exact .inl (.inl ⟨by omega, ha⟩)
  · cases rest with
    | nil => exact absurd rfl hrest
    | cons _ _ => simp

end Host

/-! ## The internal API and P2P sessions -/

/-- Nothing is written after a `Close`. -/
def NoWriteAfterClose (calls : List Call) : Prop := ∀ a b ps, calls = a ++ .close :: b → Call.write ps ∉ b

theorem good_frames (id : Nat) (ps : List Bytes) (rest : List Op)
    (hrest : ∀ kn, Good true kn rest) (kn : Nat → Bool) : Good true kn (ps.flatMap (frameOps id) ++ rest) := by
  induction ps generalizing kn with
  | nil => exact hrest kn
  | cons d r ih =>
    refine ⟨rfl, rfl, rfl, rfl, ?_, ih _⟩
    intro a _ ha
    simp only [Bool.or_eq_true, Bool.and_eq_true, decide_eq_true_eq]
    simp only [be32_len, be16_len, List.length_append]
    omega

theorem connOps_closed (id : Nat) (b : List Call) (h : ∀ ps, Call.write ps ∉ b) : connOps id true b = [] := by
  induction b with
  | nil => rfl
  | cons c r ih =>
    cases c with
    | write ps => exact absurd List.mem_cons_self (h ps)
    | close => exact ih (fun ps hm => h ps (List.mem_cons_of_mem _ hm))

theorem good_closeConn (id : Nat) (kn : Nat → Bool) (rest : List Op) (hrest : Good false (fun _ => false) rest) :
    Good true kn (.fill 0 (be32 id ++ be16 opClose) :: .use 0 6 :: .put :: rest) := by
  refine ⟨rfl, rfl, ?_, rfl, hrest⟩
  intro a _ ha
  simp only [Bool.or_eq_true, Bool.and_eq_true, decide_eq_true_eq]
  simp only [be32_len, be16_len, List.length_append]
  omega

/-- C122 (the internal API): a connection obeys the rules if nothing is written after it is closed. -/
theorem api_obeys_partial (id : Nat) (calls : List Call) (h : NoWriteAfterClose calls) : Rules (apiOps id calls) := by
  refine ⟨rfl, ?_⟩
  generalize hk : (fun (_ : Nat) => false) = kn
  clear hk
  induction calls generalizing kn with
  | nil => trivial
  | cons c r ih =>
    have hr : NoWriteAfterClose r := fun a b ps e => h (c :: a) b ps (by rw [e]; rfl)
    cases c with
    | write ps => exact good_frames id ps _ (fun kn => ih hr kn) kn
    | close =>
      simp only [connOps]
      refine good_closeConn id kn _ ?_
      rw [connOps_closed id r (fun ps => h [] r ps rfl)]
      trivial

/-- C122 (finding): whatever happened before, a `Write` (of anything, its first piece is `d`) after a `Close` of the same
connection writes into a buffer that may be another connection's by then: that connection can be made to write
bytes that are not its own. -/
theorem api_write_after_close_corrupts (id : Nat) (before : List Call) (d : Bytes) (ps : List Bytes) (after : List Call)
    (hb : Call.close ∉ before) :
    ∃ q evs s', Rules q ∧ run (two (apiOps id (before ++ .close :: .write (d :: ps) :: after)) q) evs = some s' ∧
      (s'.user 1).prog = [] ∧ (s'.user 1).out ≠ own (fun _ => 0) q := by
  have hsplit : ∀ rest, connOps id false (before ++ rest) = before.flatMap (fun c => match c with | .write ps => ps.flatMap (frameOps id) | .close => []) ++ connOps id false rest := by
    intro rest
    induction before with
    | nil => rfl
    | cons c r ih =>
      cases c with
      | close => exact absurd List.mem_cons_self hb
      | write ps =>
        simp only [List.cons_append, connOps, List.flatMap_cons, List.append_assoc]
        rw [ih (fun hm => hb (List.mem_cons_of_mem _ hm))]
  have hgood : ∀ (l : List Call) kn, Good true kn (l.flatMap (fun c => match c with | .write ps => ps.flatMap (frameOps id) | .close => [])
      ++ [.fill 0 (be32 id ++ be16 opClose), .use 0 6]) := by
    intro l
    induction l with
    | nil =>
      intro kn
      refine ⟨rfl, rfl, ?_, trivial⟩
      intro a _ ha
      simp only [Bool.or_eq_true, Bool.and_eq_true, decide_eq_true_eq]
      simp only [be32_len, be16_len, List.length_append]
      omega
    | cons c r ih =>
      intro kn
      rw [List.flatMap_cons, List.append_assoc]
      cases c with
      | close => exact ih kn
      | write ps => exact good_frames id ps _ ih kn
  have hheld : ∀ (p : List Op), (∀ o ∈ p, o ≠ .put) → endHeld true p = true := by
    intro p
    induction p with
    | nil => intro _; rfl
    | cons o r ih =>
      intro hp
      have hr := ih (fun o ho => hp o (List.mem_cons_of_mem _ ho))
      cases o with
      | put => exact absurd rfl (hp _ List.mem_cons_self)
      | get => exact hr
      | fill _ _ => exact hr
      | use _ _ => exact hr
      | send _ => exact hr
  have hnoput : ∀ o ∈ before.flatMap (fun c => match c with | .write ps => ps.flatMap (frameOps id) | .close => [])
      ++ [.fill 0 (be32 id ++ be16 opClose), .use 0 6], o ≠ .put := by
    intro o ho e
    subst e
    simp only [List.mem_append, List.mem_flatMap, List.mem_cons, List.not_mem_nil, or_false] at ho
    rcases ho with ⟨c, _, hc⟩ | hc | hc
    · cases c with
      | close => simp at hc
      | write ps =>
        simp only [List.mem_flatMap, frameOps, List.mem_cons, List.not_mem_nil, or_false] at hc
        obtain ⟨_, _, h | h | h | h⟩ := hc <;> simp at h
    · simp at hc
    · simp at hc
  obtain ⟨x, y, hxy⟩ : ∃ x y, be32 id ++ be16 opData = x :: y := ⟨_, _, rfl⟩
  have e : apiOps id (before ++ .close :: .write (d :: ps) :: after) =
      (.get :: (before.flatMap (fun c => match c with | .write ps => ps.flatMap (frameOps id) | .close => [])
        ++ [.fill 0 (be32 id ++ be16 opClose), .use 0 6])) ++
      .put :: .fill 0 (x :: y) :: (.fill 10 d :: .fill 6 (be32 d.length) :: .use 0 (10 + d.length) ::
        (ps.flatMap (frameOps id) ++ connOps id true after)) := by
    simp only [apiOps, hsplit, connOps, List.flatMap_cons, frameOps, hxy, List.cons_append, List.append_assoc, List.nil_append]
  rw [e]
  exact fill_after_put_corrupts _ _ 0 x y ⟨rfl, hgood before _⟩ (hheld _ hnoput)

/-- Nothing is received or sent after the session is closed. -/
def QuietAfterClose (l : List Peer) : Prop := ∀ a b o, l = a ++ .close :: b → o ∈ b → o = Peer.close

theorem peerOps_closed (b : List Peer) (h : ∀ o ∈ b, o = Peer.close) : peerOpsFrom true b = [] := by
  induction b with
  | nil => rfl
  | cons c r ih =>
    have := h c List.mem_cons_self
    subst this
    exact ih (fun o ho => h o (List.mem_cons_of_mem _ ho))

theorem good_peer_step (d : Bytes) (off : Nat) (n : Nat) (hn : n = d.length) (kn : Nat → Bool) (rest : List Op)
    (hrest : ∀ kn, Good true kn rest) : Good true kn (.fill 0 d :: .use 0 n :: rest) := by
  refine ⟨rfl, rfl, ?_, hrest _⟩
  intro a _ ha
  simp only [Bool.or_eq_true, Bool.and_eq_true, decide_eq_true_eq]
  omega

/-- C122 (P2P sessions): a session obeys the rules if nothing happens to it after it is closed. -/
theorem peer_obeys_partial (l : List Peer) (h : QuietAfterClose l) : Rules (peerOps l) := by
  refine ⟨rfl, ?_⟩
  generalize hk : (fun (_ : Nat) => false) = kn
  clear hk
  induction l generalizing kn with
  | nil => trivial
  | cons c r ih =>
    have hr : QuietAfterClose r := fun a b o e => h (c :: a) b o (by rw [e]; rfl)
    cases c with
    | message d => exact good_peer_step d 0 _ rfl kn _ (fun kn => ih hr kn)
    | answer d => exact good_peer_step (be16 d.length ++ d) 0 _ (by simp [be16_len]) kn _ (fun kn => ih hr kn)
    | close =>
      simp only [peerOpsFrom]
      refine ⟨rfl, ?_⟩
      rw [peerOps_closed r (fun o ho => h [] r o rfl ho)]
      trivial

/-- The bytes an event of a session puts into the buffer. -/
def Peer.fills : Peer → Bytes
  | .message d => d
  | .answer d => be16 d.length ++ d
  | .close => []

/-- C122 (finding): a P2P session that is closed (by a timer, a failed connection, the end of the client) while its
request is still being served goes on using the buffer that was given back: the next message it reads, or the
next answer or candidate it sends, can be found in another connection's bytes. -/
theorem peer_after_close_corrupts (before after : List Peer) (o : Peer) (hb : Peer.close ∉ before) (ho : o.fills ≠ []) :
    ∃ q evs s', Rules q ∧ run (two (peerOps (before ++ .close :: o :: after)) q) evs = some s' ∧
      (s'.user 1).prog = [] ∧ (s'.user 1).out ≠ own (fun _ => 0) q := by
  have hsplit : ∀ rest, peerOpsFrom false (before ++ rest) = peerOpsFrom false before ++ peerOpsFrom false rest := by
    intro rest
    induction before with
    | nil => rfl
    | cons c r ih =>
      have := ih (fun hm => hb (List.mem_cons_of_mem _ hm))
      cases c with
      | close => exact absurd List.mem_cons_self hb
      | message d => simp only [List.cons_append, peerOpsFrom, this]
      | answer d => simp only [List.cons_append, peerOpsFrom, this]
  have hgood : ∀ kn, Good true kn (peerOpsFrom false before) ∧ endHeld true (peerOpsFrom false before) = true := by
    clear hsplit
    induction before with
    | nil => exact fun _ => ⟨trivial, rfl⟩
    | cons c r ih =>
      have ih := ih (fun hm => hb (List.mem_cons_of_mem _ hm))
      intro kn
      cases c with
      | close => exact absurd List.mem_cons_self hb
      | message d => exact ⟨good_peer_step d 0 _ rfl kn _ (fun kn => (ih kn).1), (ih kn).2⟩
      | answer d =>
        exact ⟨good_peer_step (be16 d.length ++ d) 0 _ (by simp [be16_len]) kn _ (fun kn => (ih kn).1), (ih kn).2⟩
  obtain ⟨x, y, hxy⟩ : ∃ x y, o.fills = x :: y := by
    cases h : o.fills with
    | nil => exact absurd h ho
    | cons x y => exact ⟨x, y, rfl⟩
  obtain ⟨post, hpost⟩ : ∃ post, peerOpsFrom true (o :: after) = .fill 0 (x :: y) :: post := by
    cases o with
    | close => exact absurd rfl ho
    | message d => simp only [Peer.fills] at hxy; subst hxy; exact ⟨_, rfl⟩
    | answer d => simp only [Peer.fills] at hxy; simp only [peerOpsFrom, hxy]; exact ⟨_, rfl⟩
  have e : peerOps (before ++ .close :: o :: after) = (.get :: peerOpsFrom false before) ++ .put :: .fill 0 (x :: y) :: post := by
    simp only [peerOps, hsplit, List.cons_append]
    rw [← hpost]
    rfl
  rw [e]
  exact fill_after_put_corrupts _ _ 0 x y ⟨rfl, (hgood _).1⟩ (hgood (fun _ => false)).2

/-- C122 (refusals). -/
theorem resp_obeys (id : Nat) (d : Bytes) : Rules (respOps id d) := by
  refine ⟨rfl, rfl, rfl, rfl, rfl, rfl, ?_, rfl, rfl, rfl, ?_, rfl, trivial⟩
  · intro a _ ha
    simp only [Bool.or_eq_true, Bool.and_eq_true, decide_eq_true_eq, Bool.false_eq_true, false_or]
    simp only [be32_len, be16_len]
    omega
  · intro a _ ha
    simp only [Bool.or_eq_true, Bool.and_eq_true, decide_eq_true_eq, Bool.false_eq_true, false_or]
    simp only [be32_len, be16_len]
    omega

theorem readMem_frame (m : Mem) (a b c : Bytes) (x y : Nat) (hx : x = a.length) (hy : y = a.length + b.length)
    (n : Nat) (hn : n = a.length + b.length + c.length) :
    readMem (fillMem (fillMem (fillMem m 0 a) y c) x b) 0 n = a ++ b ++ c := by
  subst hx; subst hy; subst hn
  rw [readMem_append, readMem_append]
  have e1 : readMem (fillMem (fillMem (fillMem m 0 a) (a.length + b.length) c) a.length b) 0 a.length = a := by
    rw [readMem_fill_outside _ _ _ _ _ (by omega), readMem_fill_outside _ _ _ _ _ (by omega)]
    exact readMem_fill m 0 a
  have e2 : readMem (fillMem (fillMem (fillMem m 0 a) (a.length + b.length) c) a.length b) (0 + a.length) b.length = b := by
    rw [Nat.zero_add]; exact readMem_fill _ _ b
  have e3 : readMem (fillMem (fillMem (fillMem m 0 a) (a.length + b.length) c) a.length b) (0 + (a.length + b.length)) c.length = c := by
    rw [Nat.zero_add, readMem_fill_outside _ _ _ _ _ (by omega)]; exact readMem_fill _ _ c
  rw [e1, e2, e3]

theorem own_frames (id : Nat) (ps : List Bytes) (rest : List Op) (m : Mem) :
    ∃ m', own m (ps.flatMap (frameOps id) ++ rest) = ps.map (fun d => CFrame.enc (.data id d)) ++ own m' rest := by
  induction ps generalizing m with
  | nil => exact ⟨m, rfl⟩
  | cons d r ih =>
    obtain ⟨m', h⟩ := ih (fillMem (fillMem (fillMem m 0 (be32 id ++ be16 opData)) 10 d) 6 (be32 d.length))
    refine ⟨m', ?_⟩
    simp only [List.flatMap_cons, frameOps, List.cons_append, List.nil_append, own, List.map_cons]
    rw [h]
    congr 1
    rw [readMem_frame m (be32 id ++ be16 opData) (be32 d.length) d 6 10 (by simp [be32_len, be16_len])
      (by simp [be32_len, be16_len]) _ (by simp [be32_len, be16_len])]
    simp [CFrame.enc, List.append_assoc]

/-- C122 (what an API connection sends, as in C33): one frame per piece, and the close frame. -/
theorem api_own (id : Nat) (writes : List (List Bytes)) (closes : Bool) :
    own (fun _ => 0) (apiOps id (writes.map Call.write ++ if closes then [.close] else [])) =
      writes.flatten.map (fun d => CFrame.enc (.data id d)) ++ (if closes then [CFrame.enc (.closeTask id)] else []) := by
  simp only [apiOps, own]
  generalize (fun (_ : Nat) => (0 : UInt8)) = m
  induction writes generalizing m with
  | nil =>
    cases closes with
    | false => rfl
    | true =>
      simp only [List.map_nil, List.nil_append, if_true, connOps, own, List.flatten_nil]
      have := readMem_fill m 0 (be32 id ++ be16 opClose)
      simp only [be32_len, be16_len, List.length_append] at this
      rw [this]; rfl
  | cons ps r ih =>
    simp only [List.map_cons, List.cons_append, connOps, List.flatten_cons, List.map_append, List.append_assoc]
    obtain ⟨m', h⟩ := own_frames id ps (connOps id false (r.map Call.write ++ if closes then [.close] else [])) m
    rw [h, ih m']

/-- C122 (what a refusal sends, as in C33). -/
theorem resp_own (id : Nat) (d : Bytes) :
    own (fun _ => 0) (respOps id d) = [CFrame.enc (.data id d), CFrame.enc (.closeTask id)] := by
  simp only [respOps, own]
  generalize hA : fillMem (fillMem (fun _ => 0) 0 (be32 id)) 4 (be16 opData) = A
  have hA6 : readMem A 0 6 = be32 id ++ be16 opData := by
    have e : readMem A 0 6 = readMem A 0 4 ++ readMem A (0 + 4) 2 := readMem_append _ 0 4 2
    rw [e, ← hA, readMem_fill_outside _ _ _ _ _ (by omega)]
    have h0 := readMem_fill (fun _ => 0) 0 (be32 id)
    have h1 := readMem_fill (fillMem (fun _ => 0) 0 (be32 id)) 4 (be16 opData)
    simp only [be16_len, be32_len] at h0 h1
    rw [show 0 + 4 = 4 from rfl, h0, h1]
  generalize hB : fillMem (fillMem A 10 d) 6 (be32 d.length) = B
  have hB1 : readMem B 0 (10 + d.length) = CFrame.enc (.data id d) := by
    have e : 10 + d.length = 6 + (4 + d.length) := by omega
    have e6 : readMem B 0 6 = be32 id ++ be16 opData := by
      rw [← hB, readMem_fill_outside _ _ _ _ _ (by omega), readMem_fill_outside _ _ _ _ _ (by omega), hA6]
    have e4 : readMem B (0 + 6) 4 = be32 d.length := by
      rw [← hB]; have := readMem_fill (fillMem A 10 d) 6 (be32 d.length); simpa [be32_len] using this
    have e5 : readMem B (0 + 6 + 4) d.length = d := by
      rw [← hB, readMem_fill_outside _ _ _ _ _ (.inr (by simp [be32_len]))]; exact readMem_fill A 10 d
    rw [e, readMem_append, readMem_append, e6, e4, e5]
    simp [CFrame.enc, List.append_assoc]
  have hC : readMem (fillMem (fillMem B 0 (be32 id)) 4 (be16 opClose)) 0 6 = CFrame.enc (.closeTask id) := by
    have e : readMem (fillMem (fillMem B 0 (be32 id)) 4 (be16 opClose)) 0 6 =
        readMem (fillMem (fillMem B 0 (be32 id)) 4 (be16 opClose)) 0 4 ++ readMem (fillMem (fillMem B 0 (be32 id)) 4 (be16 opClose)) (0 + 4) 2 :=
      readMem_append _ 0 4 2
    rw [e, readMem_fill_outside _ _ _ _ _ (by omega)]
    have h0 := readMem_fill B 0 (be32 id)
    have h1 := readMem_fill (fillMem B 0 (be32 id)) 4 (be16 opClose)
    simp only [be16_len, be32_len] at h0 h1
    rw [show 0 + 4 = 4 from rfl, h0, h1]; rfl
  rw [hB1, hC]

/-! ## All together -/

/-- A user of the pool, in what it does with its buffers one after the other. -/
inductive Kind where
  | visitor (id si : Nat) (first : Bytes) (reads : List Bytes) (closes : Bool)
  | localConn (id : Nat) (reads : List Bytes) (closes : Bool)
  | forward (reads : List Bytes)
  | signal (d : Bytes) (receivers : Nat)
  | refusal (id : Nat) (d : Bytes)
  | host (h : Bytes) (pieces : List Bytes)
  | api (id : Nat) (calls : List Call)
  | peer (l : List Peer)
  | idle

def Kind.ops : Kind → List Op
  | .visitor id si first reads closes => serverOps id si first reads closes
  | .localConn id reads closes => clientOps id reads closes
  | .forward reads => copyOps reads
  | .signal d n => broadcastOps d n
  | .refusal id d => respOps id d
  | .host h pieces => hostOps h pieces
  | .api id calls => apiOps id calls
  | .peer l => peerOps l
  | .idle => []

/-- The cases in which the code is right. -/
def Kind.Proper : Kind → Prop
  | .host _ pieces => NoShortStart pieces
  | .api _ calls => NoWriteAfterClose calls
  | .peer l => QuietAfterClose l
  | _ => True

/-- C122 (all connections together): any number of visitors, local connections, forwarded connections, signals,
refusals, tasks that replace the Host header, connections of the internal API and P2P sessions, sharing one pool,
interleaved in any way, with any contents of the buffers in the pool: each writes exactly its own bytes, provided that
no request is cut within the first bytes of a header line and nothing is done with a connection after it was closed. -/
theorem connections_keep_their_bytes_partial (kinds : Nat → Kind) (s s' : St) (h0 : Fresh s)
    (hp : ∀ i, (s.user i).prog = (kinds i).ops) (hk : ∀ i, (kinds i).Proper) (evs : List Ev)
    (h : run s evs = some s') (i : Nat) :
    (s'.user i).out <+: own (fun _ => 0) (kinds i).ops ∧
      ((s'.user i).prog = [] → (s'.user i).out = own (fun _ => 0) (kinds i).ops) := by
  have hr : ∀ i, Rules (s.user i).prog := by
    intro i
    rw [hp i]
    have := hk i
    cases hi : kinds i with
    | visitor id si first reads closes => exact server_obeys id si first reads closes
    | localConn id reads closes => exact client_obeys id reads closes
    | forward reads => exact copy_obeys reads
    | signal d n => exact broadcast_obeys d n
    | refusal id d => exact resp_obeys id d
    | host h pieces => rw [hi] at this; exact host_obeys_partial h pieces this
    | api id calls => rw [hi] at this; exact api_obeys_partial id calls this
    | peer l => rw [hi] at this; exact peer_obeys_partial l this
    | idle => trivial
  have := own_bytes h0 hr h i
  rw [hp i] at this
  exact this

/-! ## Concrete cases -/

/-- The request `"GET / HTTP/1.1\r\n"`, cut after the `H` of the Host line: the case of `host_leaks` is met. -/
example : ∃ q evs s', Rules q ∧
    run (two (hostOps [72, 111, 115, 116, 58, 32, 97, 13, 10]
      [[71, 69, 84, 32, 47, 13] ++ 10 :: Client.HostRewrite.HOST.take 1, Client.HostRewrite.HOST.drop 1 ++ [32, 98, 13] ++ 10 :: [13, 10]]) q)
      evs = some s' ∧
    ¬ (s'.user 0).out <+: own (fun _ => 0) (hostOps [72, 111, 115, 116, 58, 32, 97, 13, 10]
      [[71, 69, 84, 32, 47, 13] ++ 10 :: Client.HostRewrite.HOST.take 1, Client.HostRewrite.HOST.drop 1 ++ [32, 98, 13] ++ 10 :: [13, 10]]) :=
  host_leaks _ _ _ _ 1 (by decide) (by decide) (by decide) (by decide) (by decide) (by decide) (by decide)

/-- Two users that obey the rules, a used buffer in the pool: the hypotheses of `own_bytes` are met and it is
handed from one to the other. -/
example : ∃ s', run { two (clientOps 7 [[1, 2]] true) (clientOps 8 [[3]] false) with mem := fun _ _ => 99, free := [0], next := 1 }
    ((List.replicate 9 (.act 0 0)) ++ List.replicate 7 (.act 1 0)) = some s' ∧
    (s'.user 0).out = [Tunnel.CFrame.enc (.data 7 [1, 2]), Tunnel.CFrame.enc (.closeTask 7)] ∧
    (s'.user 1).out = [Tunnel.CFrame.enc (.data 8 [3])] ∧ s'.next = 1 := by
  refine ⟨_, rfl, ?_, ?_, rfl⟩ <;> decide +kernel

example : Rules (apiOps 3 [.write [[1]], .write [[2], [3]], .close, .close]) :=
  api_obeys_partial _ _ (by
    intro a b ps e hm
    match a, e with
    | [], e => simp at e
    | [_], e => simp at e
    | [_, _], e => simp at e; obtain ⟨_, _, rfl⟩ := e; simp at hm
    | [_, _, _], e => simp at e; obtain ⟨_, _, _, rfl⟩ := e; simp at hm
    | _ :: _ :: _ :: _ :: _, e => simp at e)

example : Rules (peerOps [.message [1], .answer [2], .close]) :=
  peer_obeys_partial _ (by
    intro a b o e hm
    match a, e with
    | [], e => simp at e
    | [_], e => simp at e
    | [_, _], e => simp at e; obtain ⟨_, _, rfl⟩ := e; simp at hm
    | _ :: _ :: _ :: _, e => simp at e)

end Verif.Pool
