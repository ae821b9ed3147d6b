import Verif.SpecApi
/-!
# Independent specification of stored numerics

The on-disk format of PostgreSQL (src/binary.rs:17-43): a length word, a header of one or two 16-bit words, base-10000 digits. A number
has many stored forms: the long header may be used where the short one would do, and digit groups may be zero at either end.
-/
namespace PgNumeric.Spec

/-- The words `b` lay out a sign, a weight, a scale and digits: the length word is the size in bytes; there are at most 90 million digits; the header is the
short one (bits 15..14 = 10, sign, 6 bits of scale, 7 bits of weight in two's complement) or the long one (bits 15..14 = sign, 14 bits of
scale, then a weight word); the digits follow. -/
def Layout [Build] (b : Bin) (neg : Bool) (w s : Int) (ds : List Int) : Prop :=
  b.len = b.size ∧ ds.length ≤ 90000000 ∧ 0 ≤ s ∧
    ((-64 ≤ w ∧ w ≤ 63 ∧ s ≤ 63 ∧ (b.header.toNat : Int) = 32768 + (if neg then 8192 else 0) + 128 * s + w % 128 ∧
        b.rest.map BitVec.toInt = ds) ∨
     (-32767 ≤ w ∧ w ≤ 32767 ∧ s ≤ 16383 ∧ (b.header.toNat : Int) = (if neg then 16384 else 0) + s ∧
        b.rest.map BitVec.toInt = w :: ds))

/-- The words `b` are a stored form of the number `x` with display scale `s`: the digits lie in 0..9999 and have the value `x`, the scale
covers them, and a zero has no digits and no sign. Either header, and zero groups at either end, are allowed. -/
def Stored [Build] (b : Bin) (x : ℚ) (s : Int) : Prop :=
  ∃ (neg : Bool) (w : Int) (ds : List Int), Layout b neg w s ds ∧ Digits ds ∧ (ds = [] ∧ neg = false ∨ ∃ d ∈ ds, d ≠ 0) ∧
    x = (if neg then -mag ds w else mag ds w) ∧ HasScale x s

/-- A stored form without zero groups at the ends, zero having weight 0: what PostgreSQL writes, except that the long header may stand where
the short one would do. -/
def StoredTidy [Build] (b : Bin) (x : ℚ) (s : Int) : Prop :=
  ∃ (neg : Bool) (w : Int) (ds : List Int), Layout b neg w s ds ∧ Digits ds ∧
    (ds.head? ≠ some 0 ∧ ds.getLast? ≠ some 0 ∧ (ds = [] → w = 0 ∧ neg = false)) ∧
    x = (if neg then -mag ds w else mag ds w) ∧ HasScale x s

/-- The first digit group of the stored form `b`, whichever header it has: `none` if there are no digits. -/
def firstGroup [Build] (b : Bin) : Option Int :=
  if b.header.toNat / 16384 = 2 then (b.rest.map BitVec.toInt).head? else (b.rest.map BitVec.toInt).tail.head?

/-- The extended value of a stored numeric: `⊤` for NaN (whatever follows its header), the rational otherwise. -/
def StoredAs [Build] (b : Bin) (k : WithTop ℚ) : Prop :=
  (IsNaN b ∧ k = ⊤) ∨ ∃ (x : ℚ) (s : Int), Stored b x s ∧ k = (x : WithTop ℚ)

end PgNumeric.Spec
