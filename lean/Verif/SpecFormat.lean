import Verif.Model.Basic
/-!
# Independent specification of the bytes of a number
-/
namespace PgNumeric.Spec

/-- Little-endian 16-bit word. -/
def le16 (n : Nat) : List Nat := [n % 256, n / 256]
/-- Little-endian 32-bit word. -/
def le32 (n : Nat) : List Nat := [n % 256, n / 256 % 256, n / 65536 % 256, n / 16777216]
/-- Big-endian 32-bit word. -/
def be32 (n : Nat) : List Nat := [n / 16777216, n / 65536 % 256, n / 256 % 256, n % 256]

/-- The documented layout of a numeric on a little-endian host: a length word (four times the byte length, or the
byte length in big-endian order), then either a 2-byte header `10 s dddddd wwwwwww` (sign, 6-bit scale, 7-bit
two's complement weight) when scale and weight are small, or a 4-byte header `0s dddddddddddddd` and 16-bit
weight; then 2 bytes per base-10000 digit. -/
def layout [Build] (neg : Bool) (weight dscale : Int) (digits : List Int) : List Nat :=
  let short := dscale ≤ 63 ∧ -64 ≤ weight ∧ weight ≤ 63
  let len := (if short then 6 else 8) + 2 * digits.length
  (if Build.bigEndianVarlen then be32 len else le32 (4 * len)) ++
  (if short then le16 (0x8000 + (if neg then 0x2000 else 0) + 128 * dscale.toNat + (weight % 128).toNat)
   else le16 ((if neg then 0x4000 else 0) + dscale.toNat) ++ le16 (weight % 65536).toNat) ++
  digits.flatMap fun d => le16 d.toNat

end PgNumeric.Spec
