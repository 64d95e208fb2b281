import Verif.Bufio.Model
/-!
# Specification: operations on one contiguous byte sequence

Independent of the buffer: `S` is the whole stream the underlying reader delivers, the reader is a
cursor `pos` into it.  `Allowed S cap op out pos pos'` says which results a call may return and how it
moves the cursor.
-/
namespace Verif.Bufio
open Verif

/-- The bytes of a script. -/
def bytesOf (src : Script) : Bytes := (src.map (·.1)).flatten

/-- `bs` is what stands in `S` at `pos`. -/
def At (S : Bytes) (pos : Nat) (bs : Bytes) : Prop := bs = (S.drop pos).take bs.length

/-- Results a call may return on the stream `S` at `pos`, and where it leaves the cursor. -/
def Allowed (S : Bytes) (cap : Nat) : Op → Out → Nat → Nat → Prop
  | .peek n, .bytes bs e, pos, pos' =>
    pos' = pos ∧ At S pos bs ∧ (e = none ↔ bs.length = n ∧ n ≤ cap) ∧ bs.length ≤ n ∧ bs.length ≤ cap
  | .discard n, .count k e, pos, pos' =>
    pos' = pos + k ∧ pos' ≤ S.length ∧ k ≤ n ∧ (e = none ↔ k = n)
  | .read m, .bytes bs _, pos, pos' => pos' = pos + bs.length ∧ At S pos bs ∧ bs.length ≤ m
  | .readByte, .byte (.ok c), pos, pos' => pos' = pos + 1 ∧ At S pos [c]
  | .readByte, .byte (.error _), pos, pos' => pos' = pos
  | .unreadByte, .unread none, pos, pos' => pos = pos' + 1
  | .unreadByte, .unread (some _), pos, pos' => pos' = pos
  | .readSlice d, .bytes bs e, pos, pos' =>
    pos' = pos + bs.length ∧ At S pos bs ∧
    match e with
    | none => ∃ l, bs = l ++ [d] ∧ d ∉ l
    | some _ => d ∉ bs
  | .buffered, .count k e, pos, pos' => pos' = pos ∧ k ≤ cap ∧ pos + k ≤ S.length ∧ e = none
  | _, _, _, _ => False

/-- A whole sequence of calls is allowed from cursor `pos`. -/
def AllowedSeq (S : Bytes) (cap : Nat) : List Op → List Out → Nat → Nat → Prop
  | [], [], pos, pos' => pos' = pos
  | op :: ops, o :: os, pos, pos' => ∃ p, Allowed S cap op o pos p ∧ AllowedSeq S cap ops os p pos'
  | _, _, _, _ => False

/-- The call sequence never calls `UnreadByte` when the last call that moved the cursor was a
`Discard` (`tainted`); a `Peek` in between makes `UnreadByte` fail, which is fine. -/
def NoUnreadAfterDiscard : Bool → List Op → List Out → Prop
  | tainted, .unreadByte :: ops, _ :: os => tainted = false ∧ NoUnreadAfterDiscard tainted ops os
  | tainted, .discard _ :: ops, .count k _ :: os => NoUnreadAfterDiscard (tainted || decide (0 < k)) ops os
  | _, .peek _ :: ops, _ :: os => NoUnreadAfterDiscard false ops os
  | tainted, .read _ :: ops, .bytes bs _ :: os => NoUnreadAfterDiscard (tainted && bs.isEmpty) ops os
  | tainted, .readSlice _ :: ops, .bytes bs _ :: os => NoUnreadAfterDiscard (tainted && bs.isEmpty) ops os
  | _, .readByte :: ops, .byte (.ok _) :: os => NoUnreadAfterDiscard false ops os
  | tainted, _ :: ops, _ :: os => NoUnreadAfterDiscard tainted ops os
  | _, _, _ => True

/-- A script without errors and without empty reads. -/
def Clean (src : Script) : Prop := ∀ c ∈ src, c.1 ≠ [] ∧ c.2 = none

end Verif.Bufio
