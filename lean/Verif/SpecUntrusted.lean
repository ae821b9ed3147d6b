import Verif.Model.Binary
import Verif.SpecApi
import Mathlib.Data.Int.Notation
import Mathlib.Data.Nat.Notation
/-!
# Independent specification: what a byte string says

The layout of src/binary.rs:17-43 read from arbitrary bytes, in arithmetic: a length word, a header of 2 or 4 bytes, digit groups of 2 bytes. Nothing
is assumed about the bytes: the length word may lie, digits may be any 16-bit number, the number of bytes may be odd.
-/
namespace PgNumeric.Spec

/-- Byte `i` (0 behind the end). -/
def byteAt (bs : List (BitVec 8)) (i : ℕ) : ℕ := (bs.getD i 0).toNat

/-- The 16-bit word at byte `i`, little-endian. -/
def wordAt (bs : List (BitVec 8)) (i : ℕ) : ℕ := byteAt bs i + 256 * byteAt bs (i + 1)

/-- Two's complement. -/
def signed16 (n : ℕ) : ℤ := if n < 32768 then n else n - 65536

/-- The length in bytes that the length word declares. -/
def declared [Build] (bs : List (BitVec 8)) : ℕ :=
  if Build.bigEndianVarlen then (16777216 * byteAt bs 0 + 65536 * byteAt bs 1 + 256 * byteAt bs 2 + byteAt bs 3) % 1073741824
  else (byteAt bs 0 + 256 * byteAt bs 1 + 65536 * byteAt bs 2 + 16777216 * byteAt bs 3) / 4

/-- The header word. -/
def headerAt (bs : List (BitVec 8)) : ℕ := wordAt bs 4

/-- The two upper bits of the header: 3 marks NaN, 2 the short header, 0 and 1 the long header of a positive and of a negative number. -/
def kindAt (bs : List (BitVec 8)) : ℕ := headerAt bs / 16384

/-- Where the digits begin. -/
def digitsFrom (bs : List (BitVec 8)) : ℕ := if kindAt bs = 2 then 6 else 8

/-- How many digits the length word declares. -/
def declaredDigits [Build] (bs : List (BitVec 8)) : ℕ := (declared bs - digitsFrom bs) / 2

/-- The sign of the number. -/
def negAt (bs : List (BitVec 8)) : Prop := if kindAt bs = 2 then headerAt bs / 8192 % 2 = 1 else kindAt bs = 1

/-- The scale of the number. -/
def scaleAt (bs : List (BitVec 8)) : ℕ := if kindAt bs = 2 then headerAt bs / 128 % 64 else headerAt bs % 16384

/-- The weight of the number: 7 bits in two's complement in the short header, a 16-bit word behind the long one. -/
def weightAt (bs : List (BitVec 8)) : ℤ :=
  if kindAt bs = 2 then (if headerAt bs % 128 < 64 then headerAt bs % 128 else headerAt bs % 128 - 128) else signed16 (wordAt bs 6)

/-- The digits of the number: 16-bit words, taken as they are. -/
def digitsAt [Build] (bs : List (BitVec 8)) : List ℤ :=
  (List.range (declaredDigits bs)).map fun i => signed16 (wordAt bs (digitsFrom bs + 2 * i))

/-- The bytes are complete: the length word is the number of bytes, and the header is there. -/
def Complete [Build] (bs : List (BitVec 8)) : Prop := declared bs = bs.length ∧ 6 ≤ bs.length ∧ (kindAt bs ≤ 1 → 8 ≤ bs.length)

/-- The bytes that the length word declares are there (there may be more). -/
def Covered [Build] (bs : List (BitVec 8)) : Prop :=
  6 ≤ bs.length ∧ (kindAt bs ≠ 3 → digitsFrom bs ≤ declared bs ∧ digitsFrom bs + 2 * declaredDigits bs ≤ bs.length)

/-- The number that the digits have in base 32768, with the first digit at weight `w`. -/
def mag32768 : List ℤ → ℤ → ℚ
  | [], _ => 0
  | d :: ds, w => d * (32768 : ℚ) ^ w + mag32768 ds (w - 1)

/-- The place of the bytes in the order of numbers with digits up to 32767: NaN above all, otherwise by the value in base 32768. -/
noncomputable def rankAt [Build] (bs : List (BitVec 8)) : WithTop ℚ :=
  open Classical in
  if kindAt bs = 3 then ⊤
  else ((if negAt bs then -mag32768 (digitsAt bs) (weightAt bs) else mag32768 (digitsAt bs) (weightAt bs) : ℚ) : WithTop ℚ)

/-- The bytes are no number with digits in 0..32767: a negative digit, or only zeros (a zero has no digits at all). -/
def Hostile [Build] (bs : List (BitVec 8)) : Prop :=
  kindAt bs ≠ 3 ∧ ((∃ d ∈ digitsAt bs, d < 0) ∨ digitsAt bs ≠ [] ∧ ∀ d ∈ digitsAt bs, d = 0)

/-- The value of the bytes in base 32768, where they are no NaN. -/
noncomputable def valueAt [Build] (bs : List (BitVec 8)) : ℚ :=
  open Classical in if negAt bs then -mag32768 (digitsAt bs) (weightAt bs) else mag32768 (digitsAt bs) (weightAt bs)

/-- The amount of the bytes in base 10000, where they are no NaN, whatever the digits are. -/
noncomputable def amountAt [Build] (bs : List (BitVec 8)) : ℚ :=
  open Classical in if negAt bs then -mag (digitsAt bs) (weightAt bs) else mag (digitsAt bs) (weightAt bs)

/-- The integer that the bytes say, where they are no NaN and no digit is negative: the digits in front of the decimal point in base 10000 (digits that are not there
are 0), and one more if the first digit behind the point is at least 5000; nothing of it if the first digit has a weight below -1. -/
noncomputable def integerAt [Build] (bs : List (BitVec 8)) : ℤ :=
  let k := (weightAt bs + 1).toNat
  let n := if weightAt bs < -1 then 0 else
    ((List.range k).map fun i => (digitsAt bs).getD i 0 * 10000 ^ (k - 1 - i)).sum + if 5000 ≤ (digitsAt bs).getD k 0 then 1 else 0
  open Classical in if negAt bs then -n else n

/-- A digit without its last `m` decimal places (a digit has four). -/
def cutDigit (d m : ℤ) : ℤ := if m ≤ 0 then d else if 4 ≤ m then 0 else d - d % 10 ^ m.toNat

/-- The amount of the digits, in base 10000, cut after `s` decimal places: a digit of weight `w` ends at the decimal place `-4w`. -/
def magCut : List ℤ → ℤ → ℤ → ℚ
  | [], _, _ => 0
  | d :: ds, w, s => cutDigit d (-4 * w - s) * (10000 : ℚ) ^ w + magCut ds (w - 1) s

/-- What rounding adds: one unit in the place `s` if the part cut off the digit next to that place is at least one half of a unit. -/
def magHalf : List ℤ → ℤ → ℤ → ℚ
  | [], _, _ => 0
  | d :: ds, w, s =>
    if 0 < -4 * w - s ∧ -4 * w - s ≤ 4 then (if 10 ^ (-4 * w - s).toNat ≤ 2 * (d - cutDigit d (-4 * w - s)) then (10 : ℚ) ^ (-s) else 0)
    else magHalf ds (w - 1) s

/-- The amount of the bytes cut after `s` decimal places. -/
noncomputable def cutAt [Build] (bs : List (BitVec 8)) (s : ℤ) : ℚ :=
  open Classical in if negAt bs then -magCut (digitsAt bs) (weightAt bs) s else magCut (digitsAt bs) (weightAt bs) s

/-- The amount of the bytes rounded at `s` decimal places, digit by digit. -/
noncomputable def roundAt [Build] (bs : List (BitVec 8)) (s : ℤ) : ℚ :=
  open Classical in
  if negAt bs then -(magCut (digitsAt bs) (weightAt bs) s + magHalf (digitsAt bs) (weightAt bs) s)
  else magCut (digitsAt bs) (weightAt bs) s + magHalf (digitsAt bs) (weightAt bs) s

/-- `ceil` and `floor` take the bytes to have a part behind the decimal point: a digit there that is not 0, or, if the first digit is behind the point, any digit. -/
def FractionAt [Build] (bs : List (BitVec 8)) : Prop :=
  if weightAt bs < 0 then digitsAt bs ≠ [] else ∃ d ∈ (digitsAt bs).drop (weightAt bs + 1).toNat, d ≠ 0

/-- How many decimal places a type modifier takes a digit to have: at most four. -/
def placesOf (d : ℤ) : ℤ := if d < 10 then 1 else if d < 100 then 2 else if d < 1000 then 3 else 4

/-- A type modifier takes the bytes to have more than `m` decimal places in front of the point. -/
def TooLong [Build] (bs : List (BitVec 8)) (m : ℤ) : Prop := ∃ d, (digitsAt bs).head? = some d ∧ m < 4 * weightAt bs + placesOf d

/-- A digit in front of the decimal point is negative. -/
def NegativeInFront [Build] (bs : List (BitVec 8)) : Prop := kindAt bs ≠ 3 ∧ ∃ i : ℕ, (i : ℤ) ≤ weightAt bs ∧ (digitsAt bs).getD i 0 < 0

/-- The 16-bit two's complement number that an integer wraps to. -/
def wrap16 (n : ℤ) : ℤ := (n + 32768) % 65536 - 32768

end PgNumeric.Spec
