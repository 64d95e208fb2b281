import Verif.Route.Tls
/-!
# Specification: the wire format of a ClientHello (RFC 8446 §4.1.2, RFC 6066 §3)
-/
namespace Verif.Route
open Verif

/-- A TLS extension other than the one we look for: type and body. -/
structure Extn where
  type : Nat
  body : Bytes

def Extn.bytes (e : Extn) : Bytes := be16 e.type ++ be16 e.body.length ++ e.body

/-- A ClientHello carrying a server name. `before`/`after` are the other extensions. -/
structure Hello where
  recVersion : Bytes
  recLen : Bytes
  hsLen : Bytes
  version : Bytes
  random : Bytes
  sessionID : Bytes
  ciphers : Bytes
  compression : Bytes
  before : List Extn
  name : Bytes
  /-- further entries of the server name list -/
  moreNames : Bytes
  after : List Extn

/-- Body of the server_name extension. -/
def Hello.sniBody (h : Hello) : Bytes :=
  be16 (3 + h.name.length + h.moreNames.length) ++ [0] ++ be16 h.name.length ++ h.name ++ h.moreNames

def Hello.exts (h : Hello) : Bytes :=
  (h.before.map Extn.bytes).flatten ++ (Extn.bytes ⟨0, h.sniBody⟩ ++ (h.after.map Extn.bytes).flatten)

/-- The record as sent on the wire. -/
def Hello.bytes (h : Hello) : Bytes :=
  [22] ++ h.recVersion ++ h.recLen ++ [1] ++ h.hsLen ++ h.version ++ h.random ++
  [UInt8.ofNat h.sessionID.length] ++ h.sessionID ++ be16 h.ciphers.length ++ h.ciphers ++
  [UInt8.ofNat h.compression.length] ++ h.compression ++ be16 h.exts.length ++ h.exts

/-- Field sizes are as the format prescribes. -/
structure Hello.WF (h : Hello) : Prop where
  recVersion : h.recVersion.length = 2
  recLen : h.recLen.length = 2
  hsLen : h.hsLen.length = 3
  version : h.version.length = 2
  random : h.random.length = 32
  sessionID : h.sessionID.length < 256
  ciphers : h.ciphers.length < 65536
  compression : h.compression.length < 256
  exts : h.exts.length < 65536
  before : ∀ e ∈ h.before, 0 < e.type ∧ e.type < 65536

end Verif.Route
