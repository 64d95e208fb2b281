import Verif.Handshake.Model
/-!
# Specification of the tunnel handshake

Independent of the parser: a grammar of options, what a sequence of options asks for, and what a
list of client services asks for.
-/
namespace Verif.Handshake
open Verif

/-- The options of the wire protocol (libcs/predef/const.go:63-76). -/
inductive Opt
  | next                               -- "this option and another one follow"
  | idHost (tls : Bool)                -- use the id as host prefix
  | tcp (random : UInt8) (port : Nat)  -- open a TCP port
  | host (tls : Bool) (pfx : Bytes)    -- open an explicit host prefix
  deriving DecidableEq, Repr

/-- Wire form of an option. -/
def Opt.enc : Opt → Bytes
  | .next => [2]
  | .idHost tls => [if tls then 4 else 0]
  | .tcp random port => 1 :: random :: be16 port
  | .host tls pfx => (if tls then 5 else 3) :: UInt8.ofNat pfx.length :: pfx

/-- Options that have a wire form: ports are 16 bit, prefixes at most 255 bytes. -/
def Opt.Valid : Opt → Prop
  | .tcp _ port => port < 65536
  | .host _ pfx => pfx.length < 256
  | _ => True

/-- Wire form of a list of options. -/
def encOpts (os : List Opt) : Bytes := os.flatMap Opt.enc

/-- `Complete n os`: starting with `n` options owed, exactly the options `os` pay the debt; `next`
pays one and adds two. A complete option list of a handshake is `Complete 1`. -/
inductive Complete : Nat → List Opt → Prop
  | done : Complete 0 []
  | next {n os} : Complete (n + 2) os → Complete (n + 1) (.next :: os)
  | svc {n o os} : o ≠ .next → Complete n os → Complete (n + 1) (o :: os)

/-- The services an option list asks for: everything but `next`. -/
def optServices (os : List Opt) : List Opt := os.filter (fun o => o ≠ .next)

/-- The host entry an option asks for: the effective prefix and whether it is TLS. -/
def Opt.host? (withID : Bool) (id : Bytes) : Opt → Option (Bytes × Bool)
  | .idHost tls => some (id, tls)
  | .host tls pfx => some (if withID then id ++ ascii "-" ++ pfx else pfx, tls)
  | _ => none

/-- The TCP entry an option asks for: port and whether a random port is acceptable. -/
def Opt.tcp? : Opt → Option TcpOpt
  | .tcp random port => some ⟨port, random != 0⟩
  | _ => none

/-- The host entry a client service asks for on a server. A service whose prefix is the client's id
gets the id itself; any other prefix gets the id prepended when the server says so. -/
def Service.host? (withID : Bool) (id : Bytes) (s : Service) : Option (Bytes × Bool) :=
  match s.scheme with
  | .tcp => none
  | .http => some (if s.hostPrefix = id then id else
      if withID then id ++ ascii "-" ++ s.hostPrefix else s.hostPrefix, false)
  | .https => some (if s.hostPrefix = id then id else
      if withID then id ++ ascii "-" ++ s.hostPrefix else s.hostPrefix, true)

/-- The TCP entry a client service asks for. -/
def Service.tcp? (s : Service) : Option TcpOpt :=
  match s.scheme with
  | .tcp => some ⟨s.tcpPort, s.tcpRandom⟩
  | _ => none

/-- A service has a host entry. -/
def Service.isHost (s : Service) : Bool := s.scheme ≠ .tcp

/-- Number of bytes a service occupies in the handshake. -/
def Service.wireSize (id : Bytes) (s : Service) : Nat :=
  match s.scheme with
  | .tcp => 4
  | _ => if s.hostPrefix = id then 1 else 2 + s.hostPrefix.length

/-- Number of bytes of the whole handshake: magic and version, id, secret, the services, and one
`next` marker per service but the last. -/
def handshakeSize (id secret : Bytes) (svcs : List Service) : Nat :=
  2 + (1 + id.length) + (1 + secret.length) + (svcs.map (Service.wireSize id)).sum
    + (svcs.length - 1)

/-- A registration describes exactly the services of `svcs`: prefix `p` is registered with index `i`
iff service `i` asks for it, and TCP entry `i` is registered iff service `i` asks for it. -/
def Reg.Describes (reg : Reg) (withID : Bool) (id : Bytes) (svcs : List Service) : Prop :=
  (∀ (p : Bytes) (h : HostOpt), reg.ids.get p = some h ↔
      ∃ s, svcs[h.serviceIndex]? = some s ∧ s.host? withID id = some (p, h.tls)) ∧
  (∀ (i : Nat) (t : TcpOpt), reg.ports.get i = some t ↔
      ∃ s, svcs[i]? = some s ∧ s.tcp? = some t)

end Verif.Handshake

namespace Verif.Handshake
open Verif

/-- A registration describes exactly the services an option list asks for: service `i` is the `i`-th
non-`next` option; a later service asking for the same host prefix replaces the earlier one. -/
def Reg.DescribesOpts (reg : Reg) (withID : Bool) (id : Bytes) (os : List Opt) : Prop :=
  (∀ (p : Bytes) (h : HostOpt), reg.ids.get p = some h ↔
      (∃ o, (optServices os)[h.serviceIndex]? = some o ∧ o.host? withID id = some (p, h.tls)) ∧
      (∀ (j : Nat) (o : Opt) (tls : Bool), h.serviceIndex < j → (optServices os)[j]? = some o →
        o.host? withID id ≠ some (p, tls))) ∧
  (∀ (i : Nat) (t : TcpOpt), reg.ports.get i = some t ↔
      ∃ o, (optServices os)[i]? = some o ∧ o.tcp? = some t)

end Verif.Handshake
