import Verif.Ports.Props
/-! # The hand-over race

In `deleteTCPListener`, `closeTCPListeners` and `processTCPOptions` the port is put back into the pool
*before* the listener is closed, and the pool's lock is not held in between.  Here the two halves of
`release` are separate steps of one client, another client's `openTCPPort` may run between them. -/

namespace Verif.Ports
open Verif

/-- Atomic steps: libcs/server/client.go:353-355 / 374-376, libcs/server/conn.go:1133-1135 (`putBack`), libcs/server/client.go:356/377,
libcs/server/conn.go:1136 (`close`), libcs/server/client.go:397-408 (`tryOpen`, holds `portsMtx` throughout). -/
inductive Micro
  | putBack (c port : Nat)
  | close (h : Nat)
  | tryOpen (c si : Nat) (opt : Opt) (env : Env)

def micro (P : Nat → Nat) (s : St) : Micro → St
  | .putBack c port => giveBack s (P c) port
  | .close h => closeSock s h
  | .tryOpen c si opt env => (openTCPPort P s c si { sock := none, opt := opt } env).2

/-- Client 0 has port 80 open and releases it (put back, then close); client 1 asks for port 80 in
between.  For a moment both listeners are open on port 80 (the code binds with SO_REUSEPORT, so the
operating system does not prevent it): the micro steps are exactly those of `release` and `openTCPPort`. -/
theorem handover_race :
    let P : Nat → Nat := fun _ => 0
    let s0 := (processTCP P (start (fun _ => [80])) 0 [(0, ⟨80, false⟩)] (fun _ => ⟨fun _ => true, []⟩)).2
    let s1 := micro P s0 (.putBack 0 80)
    let s2 := micro P s1 (.tryOpen 1 0 ⟨80, false⟩ ⟨fun _ => true, []⟩)
    OpenFor s0 80 0 0 ∧ OpenFor s2 80 0 0 ∧ OpenFor s2 80 1 0 ∧
      release s0 (P 0) 0 80 = micro P s1 (.close 0) :=
  ⟨⟨0, by decide⟩, ⟨0, by decide⟩, ⟨1, by decide⟩, rfl⟩

end Verif.Ports
