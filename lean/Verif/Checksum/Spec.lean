import Verif.Checksum.Model
import Verif.Handshake.Spec
/-!
# Specification for the checksum: bytes of a service list, and "sane" services
-/
namespace Verif.Checksum
open Verif Verif.Handshake

/-- What a service asks for on a server: a host entry (effective prefix, TLS?) or a TCP entry. -/
inductive Entry
  | host (pfx : Bytes) (tls : Bool)
  | tcp (port : Nat) (random : Bool)
  deriving DecidableEq, Repr

/-- The entry of a service. -/
def entry (withID : Bool) (id : Bytes) (s : Service) : Entry :=
  match s.host? withID id with
  | some (p, tls) => .host p tls
  | none => .tcp s.tcpPort s.tcpRandom

/-- The bytes hashed for entry number `i`. -/
def Entry.bytes (i : Nat) : Entry → Bytes
  | .host p tls => be16 i ++ (if tls then p ++ ascii "-tls" else p)
  | .tcp port random => be16 i ++ be16 port ++ [if random then 1 else 0]

/-- The bytes hashed for a list of entries, numbered from `i`. -/
def entriesBytes : Nat → List Entry → Bytes
  | _, [] => []
  | i, e :: es => e.bytes i ++ entriesBytes (i + 1) es

/-- Entries whose text cannot be confused: a nonempty prefix of bytes above 1 (any host name
character is), not ending in "-tls" unless it is a TLS service; a 16-bit port. -/
def Entry.Sane : Entry → Prop
  | .host p tls => p ≠ [] ∧ (∀ b ∈ p, 1 < b.toNat) ∧ (tls = false → ¬ ascii "-tls" <:+ p)
  | .tcp port _ => port < 65536

end Verif.Checksum
