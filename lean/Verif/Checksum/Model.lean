import Verif.Handshake.Model
/-!
# `calChecksum` (libcs/server/conn.go:783-818)

SHA-256 itself is not modelled: the model computes the exact byte string fed to the hash (the digest
is a function of it).
-/
namespace Verif.Checksum
open Verif Verif.Handshake

/-- Values stored in the tree: a string, or an `openTCPOption`. -/
inductive TVal
  | str (s : Bytes)
  | port (o : TcpOpt)
  deriving DecidableEq, Repr

/-- `btree` with `UInt16Comparator` as a key-sorted association list;
`tree.Put` inserts or overwrites. -/
def treePut : List (Nat × TVal) → Nat → TVal → List (Nat × TVal)
  | [], k, v => [(k, v)]
  | (k', v') :: t, k, v =>
    if k < k' then (k, v) :: (k', v') :: t
    else if k = k' then (k, v) :: t
    else (k', v') :: treePut t k v

/-- Value stored for a host prefix (libcs/server/conn.go:786-789): the prefix, with "-tls" appended for TLS. -/
def hostVal (id : Bytes) (o : HostOpt) : TVal := .str (if o.tls then id ++ ascii "-tls" else id)

/-- The two filling loops (libcs/server/conn.go:785-794). The association lists' orders are the (arbitrary)
iteration orders of the Go maps. -/
def fillTree (ids : AMap Bytes HostOpt) (ports : AMap Nat TcpOpt) : List (Nat × TVal) :=
  let t := ids.foldl (fun t e => treePut t e.2.serviceIndex (hostVal e.1 e.2)) []
  ports.foldl (fun t e => treePut t e.1 (.port e.2)) t

/-- Bytes written to the hash for one tree entry (libcs/server/conn.go:799-813). -/
def entryBytes : Nat × TVal → Bytes
  | (k, .str s) => be16 k ++ s
  | (k, .port o) => be16 k ++ be16 o.port ++ [if o.random then 1 else 0]

/-- The byte string hashed by `calChecksum`. -/
def checksumInput (ids : AMap Bytes HostOpt) (ports : AMap Nat TcpOpt) : Bytes :=
  (fillTree ids ports).flatMap entryBytes

end Verif.Checksum
