import Verif.Client.PeerMsg
set_option linter.unusedSimpArgs false
/-!
# C58: what a P2P visitor receives (libcs/client/peerproc.go:76-152, 326-433; bin/src/peer/conn.rs:64-97, 344-459)

In its default mode the client runs one `gt sub-p2p` process per P2P visitor and exchanges operations with it over
standard input and output. The JSON coding and the WebRTC engine are trusted; the length-prefixed framing of the
operations is C38/C42. Here: which operations are exchanged, and what reaches the visitor.
-/
namespace Verif.P2P.Session
open Verif Verif.Client.PeerMsg

/-- The operations (bin/src/peer/mod.rs:101-112, libcs/client/peerproc.go:56-75). `config` stands for any
configuration. -/
inductive Op where
  | config (c : Nat)
  | offer (sdp : Bytes)
  | answer (sdp : Bytes)
  | candidate (c : Bytes)
  | getOffer (channel : Bytes)
deriving DecidableEq, Repr

/-- Decoding into the Go struct (libcs/client/peerproc.go:56-62): an absent field is the empty string. -/
def Op.answerSDP : Op → Bytes
  | .answer s => s
  | _ => []
def Op.offerSDP : Op → Bytes
  | .offer s => s
  | _ => []
def Op.cand : Op → Bytes
  | .candidate c => c
  | _ => []

/-- The WebRTC engine of a process: what it answers to an offer (or that it refuses it), its own offer, the
candidates it finds after a local description is set, and whether it accepts an answer or candidate. -/
structure Engine where
  answer : Bytes → Option Bytes
  offer : Bytes
  cands : List Bytes
  accepts : Op → Bool

/-- The candidates, then the end mark (bin/src/peer/conn.rs:247-296). -/
def gathered (e : Engine) : List Op := e.cands.map Op.candidate ++ [.candidate []]

/-- bin/src/peer/conn.rs:344-459 `handle`: the operations written for those read. Simplified: the candidates of one
description are written before the next operation is read. -/
def handle (e : Engine) : List Op → List Op
  | [] => []
  | .offer s :: r =>
    match e.answer s with
    | none => []
    | some a => .answer a :: gathered e ++ handle e r
  | .getOffer _ :: r => .offer e.offer :: gathered e ++ handle e r
  | .candidate c :: r =>
    if c = [] then handle e r
    else if e.accepts (.candidate c) then handle e r else []
  | .answer s :: r => if e.accepts (.answer s) then handle e r else []
  | .config _ :: _ => []

/-- bin/src/peer/conn.rs:64-97 `new`, then `handle`: everything the process writes. The first operation is written back
to standard output (bin/src/peer/conn.rs:81-86). -/
def child (e : Engine) : List Op → List Op
  | [] => []
  | .config c :: r => .config c :: handle e r
  | op :: _ => [op]

/-- libcs/client/peerproc.go:368-398 `processOffer` and `response`: the body of the HTTP response, given everything the
process writes from now on. `none`: HTTP 400. -/
def offerResponse : List Op → Option Bytes
  | [] => none
  | x :: r => some (respBytes x.answerSDP (r.map Op.cand))

/-- libcs/client/peerproc.go:400-433 `getOffer`; `idJson` is the text written last (its `id`). -/
def getOfferResponse (idJson : Bytes) : List Op → Option Bytes
  | [] => none
  | x :: r => some (respBytes x.offerSDP (r.map Op.cand) ++ idJson)

/-- Specification: the visitor receives the description and then every candidate, each framed. -/
def wanted (sdp : Bytes) (cands : List Bytes) : Bytes := frames (sdp :: cands)

theorem takeWhile_gathered (cands : List Bytes) (hne : ∀ c ∈ cands, c ≠ []) (r : List Bytes) :
    (cands ++ [] :: r).takeWhile (fun c => !c.isEmpty) = cands := by
  induction cands with
  | nil => simp
  | cons c cs ih =>
    have h1 : c.isEmpty = false := by simpa using hne c List.mem_cons_self
    rw [List.cons_append, List.takeWhile_cons, if_pos (by simp [h1]), ih (fun x hx => hne x (List.mem_cons_of_mem _ hx))]

/-- **C58** (partial, the Go half): if what the process writes first is its answer, and then its candidates, the visitor
receives exactly these (messages of at most 4094 bytes, C42). Missing: the process writes something else first. -/
theorem answer_relayed_partial (a : Bytes) (cands : List Bytes) (rest : List Op) (hne : ∀ c ∈ cands, c ≠ [])
    (hs : ∀ m ∈ a :: cands, m.length ≤ 4094) :
    offerResponse (.answer a :: (cands.map Op.candidate ++ .candidate [] :: rest)) = some (wanted a cands) := by
  have hm : (cands.map Op.candidate).map Op.cand = cands := by
    rw [List.map_map]; exact List.map_id'' (fun _ => rfl) _
  have h1 : ∀ m, m.length ≤ 4094 → respMsg m = frame m := by
    intro m hm
    unfold respMsg frame
    rw [Nat.mod_eq_of_lt (by omega), List.take_of_length_le (by simp [be16]; omega)]
  simp only [offerResponse, respBytes, Op.answerSDP, List.map_append, List.map_cons, hm, Op.cand,
    takeWhile_gathered cands hne, wanted, frames, List.flatMap_cons]
  rw [h1 a (hs a List.mem_cons_self)]
  congr 2
  clear hm
  induction cands with
  | nil => rfl
  | cons c cs ih =>
    rw [List.flatMap_cons, List.flatMap_cons, h1 c (hs c (by simp)),
      ih (fun x hx => hne x (List.mem_cons_of_mem _ hx)) (fun m hm => hs m (by
        rcases List.mem_cons.mp hm with hm | hm
        · exact hm ▸ List.mem_cons_self
        · exact List.mem_cons_of_mem _ (List.mem_cons_of_mem _ hm)))]

/-- **C58 is false**: whatever the configuration, the offer, the engine's answer and candidates, and whatever the visitor
sends afterwards, the visitor receives one empty message. The process echoes its configuration, which the client takes
for the answer; the answer itself is then taken for the end of the candidates. -/
theorem offer_never_answered (e : Engine) (cfg : Nat) (offer : Bytes) (later : List Op) :
    offerResponse (child e (.config cfg :: .offer offer :: later)) = some [0, 0] := by
  simp only [child, offerResponse, Op.answerSDP, handle, respBytes]
  cases e.answer offer with
  | none => rfl
  | some a => rfl

/-- So the visitor does not get the answer unless the answer is empty and there are no candidates. -/
theorem offer_answer_lost (e : Engine) (cfg : Nat) (offer a : Bytes) (later : List Op) (ha : a ≠ []) :
    offerResponse (child e (.config cfg :: .offer offer :: later)) ≠ some (wanted a e.cands) := by
  rw [offer_never_answered]
  intro h
  have hl := congrArg List.length (Option.some.inj h)
  have : 0 < a.length := List.length_pos_iff.mpr ha
  simp only [wanted, frames, frame, List.flatMap_cons, List.length_append, List.length_cons, List.length_nil,
    be16_length] at hl
  omega

/-- **C58 is false** for visitors that ask for an offer: they get an empty one, then the id. -/
theorem requested_offer_empty (e : Engine) (cfg : Nat) (idJson chan : Bytes) (later : List Op) :
    getOfferResponse idJson (child e (.config cfg :: .getOffer chan :: later)) = some ([0, 0] ++ idJson) := by
  simp only [child, getOfferResponse, Op.offerSDP, handle, respBytes]
  rfl

/-- The engine does answer: the answer and the candidates are written by the process, right behind the echo. -/
theorem child_answers (e : Engine) (cfg : Nat) (offer a : Bytes) (h : e.answer offer = some a) :
    child e [.config cfg, .offer offer] = .config cfg :: .answer a :: (e.cands.map Op.candidate ++ [.candidate []]) := by
  simp [child, handle, h, gathered]

example : offerResponse [.answer [1, 2, 3], .candidate [9], .candidate [], .config 0] = some [0, 3, 1, 2, 3, 0, 1, 9] := by
  decide

end Verif.P2P.Session
