/-!
# Common vocabulary: bytes and big-endian integers

Go `[]byte` values are modelled as `List UInt8`.
-/
deriving instance DecidableEq for Except

namespace Verif

/-- A byte string (Go `[]byte` / `string`). -/
abbrev Bytes := List UInt8

/-- Two big-endian bytes of `n`, as written by `byte(v>>8), byte(v)`
(e.g. libcs/client/conn.go:104-106, libcs/server/conn.go:1014-1017). Bits above 16 are dropped, as Go's
`byte(..)` conversion does. -/
def be16 (n : Nat) : Bytes := [UInt8.ofNat (n / 256), UInt8.ofNat n]

/-- Four big-endian bytes of `n`, as written by `byte(v>>24) .. byte(v)`
(e.g. libcs/server/conn.go:1009-1012). -/
def be32 (n : Nat) : Bytes :=
  [UInt8.ofNat (n / 16777216), UInt8.ofNat (n / 65536), UInt8.ofNat (n / 256), UInt8.ofNat n]

/-- `uint16(b[1]) | uint16(b[0])<<8` (e.g. libcs/client/conn.go:281). -/
def rd16 (a b : UInt8) : Nat := a.toNat * 256 + b.toNat

/-- `uint32(b[3]) | uint32(b[2])<<8 | uint32(b[1])<<16 | uint32(b[0])<<24`
(e.g. libcs/server/conn.go:846). -/
def rd32 (a b c d : UInt8) : Nat :=
  a.toNat * 16777216 + b.toNat * 65536 + c.toNat * 256 + d.toNat

theorem u8_lt (a : UInt8) : a.toNat < 256 := UInt8.toNat_lt_size a

theorem u8_ofNat_toNat {n : Nat} (h : n < 256) : (UInt8.ofNat n).toNat = n := by
  simp; omega

theorem u8_eq_of_toNat {a b : UInt8} (h : a.toNat = b.toNat) : a = b := UInt8.toNat_inj.mp h

theorem rd16_be16 {n : Nat} (h : n < 65536) :
    rd16 (UInt8.ofNat (n / 256)) (UInt8.ofNat n) = n := by
  simp [rd16]; omega

theorem rd32_be32 {n : Nat} (h : n < 4294967296) :
    rd32 (UInt8.ofNat (n / 16777216)) (UInt8.ofNat (n / 65536)) (UInt8.ofNat (n / 256))
      (UInt8.ofNat n) = n := by
  simp [rd32]; omega

theorem rd16_lt (a b : UInt8) : rd16 a b < 65536 := by
  have := u8_lt a; have := u8_lt b; simp only [rd16]; omega

theorem rd32_lt (a b c d : UInt8) : rd32 a b c d < 4294967296 := by
  have := u8_lt a; have := u8_lt b; have := u8_lt c; have := u8_lt d; simp only [rd32]; omega

@[simp] theorem be16_length (n : Nat) : (be16 n).length = 2 := rfl
@[simp] theorem be32_length (n : Nat) : (be32 n).length = 4 := rfl

end Verif

namespace Verif
/-- The bytes of an ASCII string literal. -/
def ascii (s : String) : Bytes := s.toList.map (fun c => UInt8.ofNat c.toNat)

example : ascii "-tls" = [45, 116, 108, 115] := by rfl
end Verif
