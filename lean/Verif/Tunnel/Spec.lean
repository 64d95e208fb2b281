import Verif.Tunnel.Client
/-!
# Specification of the multiplexed stream

A public connection `i` sees only its own frames: an `open_` starts a fresh local connection to the
chosen service, `data` appends to it, `closeTask` closes it.
-/
namespace Verif.Tunnel
open Verif

/-- The frame belongs to task `i`. -/
def SFrame.isOf (i : Nat) : SFrame → Bool
  | .open_ id _ _ => id == i
  | .data id _ => id == i
  | .closeTask id => id == i
  | _ => false

/-- First two bytes "XP" mark a peer-to-peer request instead of proxied data. -/
def isXP (p : Bytes) : Bool := p.take 2 == [0x58, 0x50]

/-- What one event (a frame, with the environment's choices at that moment) does to the local
connection of task `i`. -/
def own (i : Nat) (v : Option Local) (f : SFrame) (e : Env) : Option Local :=
  let v := if i ∈ e.ended then none else v
  match f with
  | .open_ id si p =>
    if id = i ∧ isXP p = false ∧ e.dialOk = true then some ⟨si, e.take p, false⟩ else v
  | .data id p =>
    if id = i then v.map (fun l => if l.closed then l else { l with got := l.got ++ e.take p }) else v
  | .closeTask id => if id = i then v.map (fun l => { l with closed := true }) else v
  | _ => v

/-- The events that concern task `i`: its frames and the end of its goroutine. -/
def concerns (i : Nat) (x : SFrame × Env) : Bool := x.1.isOf i || decide (i ∈ x.2.ended)

/-- Fold of `own` over a history. -/
def ownRun (i : Nat) (v : Option Local) (h : List (SFrame × Env)) : Option Local :=
  h.foldl (fun v x => own i v x.1 x.2) v

/-- Frames the server's code produces: ids below the reserved signals, 16-bit service indices known to
the client, payloads that fit in a frame, and (libcs/server/conn.go:1016-1031 with what is buffered at that
point) no first frame with exactly one byte of payload. No `reconnect` signal. -/
def SFrame.Valid (nsvc : Nat) : SFrame → Prop
  | .open_ id si p => id < preserved ∧ si < nsvc ∧ si < 65536 ∧ p.length < 4294967296 ∧ p.length ≠ 1
  | .data id p => id < preserved ∧ p.length < 4294967296
  | .closeTask id => id < preserved
  | .info si port => si < 65536 ∧ port < 65536
  | .reconnect => False
  | _ => True

/-- The bytes the server wrote. -/
def encAll (fs : List SFrame) : Bytes := (fs.map SFrame.enc).flatten

end Verif.Tunnel
