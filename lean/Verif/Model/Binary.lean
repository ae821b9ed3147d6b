import Verif.Model.Var
/-!
# The on-disk format (src/binary.rs) and the conversion of variables to it

A numeric is a byte string: a 4-byte length word, a 2- or 4-byte header and 2-byte digits. The model keeps it
as the length word, the first header word and the remaining 16-bit words; `asBytes` gives the bytes on a
little-endian host.
-/
namespace PgNumeric

/-- src/binary.rs:294-302 `NumericBinary`: `vl_len`, then the header word, then all further 16-bit words
(the weight word of the long format, the digits). -/
structure Bin where
  vlLen : BitVec 32
  header : BitVec 16
  rest : List (BitVec 16)
  deriving DecidableEq, Repr

namespace Bin

/-- src/binary.rs:64-68 and 71-79: the masks. -/
abbrev SIGN_MASK : BitVec 16 := 0xC000#16
abbrev POS : BitVec 16 := 0x0000#16
abbrev NEG : BitVec 16 := 0x4000#16
abbrev SHORT : BitVec 16 := 0x8000#16
abbrev NAN : BitVec 16 := 0xC000#16
abbrev SHORT_SIGN_MASK : BitVec 16 := 0x2000#16
abbrev SHORT_DSCALE_MASK : BitVec 16 := 0x1F80#16
abbrev SHORT_WEIGHT_SIGN_MASK : BitVec 16 := 0x0040#16
abbrev SHORT_WEIGHT_MASK : BitVec 16 := 0x003F#16
abbrev DSCALE_MASK : BitVec 16 := 0x3FFF#16

/-- The sign word of a variable (src/binary.rs:65-68). -/
def signWord : Sign → BitVec 16
  | .pos => POS
  | .neg => NEG
  | .nan => NAN

/-- `u32::to_be` / `u32::from_be` on a little-endian host: reverse the four bytes. -/
def swap32 (x : BitVec 32) : BitVec 32 :=
  (x <<< 24) ||| ((x &&& 0xFF00#32) <<< 8) ||| ((x >>> 8) &&& 0xFF00#32) ||| (x >>> 24)

/-- src/binary.rs:311-319 `encode_len`. -/
def encodeLen [Build] (len : BitVec 32) : BitVec 32 :=
  if Build.bigEndianVarlen then swap32 (len &&& 0x3FFFFFFF#32) else len <<< 2

/-- src/binary.rs:322-330 `decode_len`. -/
def decodeLen [Build] (len : BitVec 32) : BitVec 32 :=
  if Build.bigEndianVarlen then swap32 len &&& 0x3FFFFFFF#32 else (len >>> 2) &&& 0x3FFFFFFF#32

/-- src/binary.rs:304-308 `can_be_short` on the already truncated `i16` weight and `u16` scale. -/
def canBeShort (weight dscale : BitVec 16) : Bool :=
  dscale.toNat ≤ 63 && weight.toInt ≤ 63 && weight.toInt ≥ -64

/-- src/binary.rs:136-160 `NumericShort::set_header` (the two debug assertions of the NaN case are in
`intoBuf`). -/
def shortHeader (weight dscale sign : BitVec 16) : BitVec 16 :=
  if sign = NAN then NAN
  else
    let s := if sign = NEG then SHORT ||| SHORT_SIGN_MASK else SHORT
    let ds := dscale <<< 7
    let ws := if weight.toInt < 0 then SHORT_WEIGHT_SIGN_MASK else 0#16
    let w := weight &&& SHORT_WEIGHT_MASK
    s ||| ds ||| ws ||| w

/-- src/binary.rs:174-177 `NumericLong::set_header`, the sign/scale word. -/
def longHeader (dscale sign : BitVec 16) : BitVec 16 := sign ||| (dscale &&& DSCALE_MASK)

/-- src/var.rs:220-235 `into_numeric_buf` with src/data.rs:200-240 `set_header`: the resulting bytes.
`weight as i16`, `dscale as u16` and the digits truncate to 16 bits. -/
def encode [Build] (v : Var) : Bin :=
  let weight := BitVec.ofInt 16 v.weight
  let dscale := BitVec.ofInt 16 v.dscale
  let sign := signWord v.sign
  let digits := v.digits.map (BitVec.ofInt 16)
  let n := BitVec.ofNat 32 v.digits.length
  if canBeShort weight dscale then
    ⟨encodeLen (6#32 + n * 2#32), shortHeader weight dscale sign, digits⟩
  else
    ⟨encodeLen (8#32 + n * 2#32), longHeader dscale sign, weight :: digits⟩

/-- `into_numeric_buf` with the debug assertions of src/binary.rs:138-139. -/
def intoBuf [Build] (v : Var) : M Bin := do
  if v.sign = .nan ∧ canBeShort (BitVec.ofInt 16 v.weight) (BitVec.ofInt 16 v.dscale) = true then
    dassert (v.weight = 0)
    dassert (v.dscale = 0)
  pure (encode v)

/-- src/binary.rs:342 `len`. -/
def len [Build] (b : Bin) : Nat := (decodeLen b.vlLen).toNat

/-- src/binary.rs:204 `flag_bits`. -/
def flagBits (b : Bin) : BitVec 16 := b.header &&& SIGN_MASK
/-- src/binary.rs:209 `is_nan`. -/
def isNan (b : Bin) : Bool := b.flagBits == NAN
/-- src/binary.rs:214 `is_short`. -/
def isShort (b : Bin) : Bool := b.flagBits == SHORT
/-- src/binary.rs:222 `header_is_short`. -/
def headerIsShort (b : Bin) : Bool := (b.header &&& 0x8000#16) != 0#16
/-- src/binary.rs:227 `header_size`. -/
def headerSize (b : Bin) : Nat := if b.headerIsShort then 6 else 8
/-- src/binary.rs:236 `sign`. -/
def sign (b : Bin) : BitVec 16 :=
  if b.isShort then (if (b.header &&& SHORT_SIGN_MASK) != 0#16 then NEG else POS) else b.flagBits
/-- src/binary.rs:249 `dscale`. -/
def dscale (b : Bin) : BitVec 16 :=
  if b.headerIsShort then (b.header &&& SHORT_DSCALE_MASK) >>> 7 else b.header &&& DSCALE_MASK
/-- src/binary.rs:261 `weight_short`. -/
def weightShort (b : Bin) : BitVec 16 :=
  if (b.header &&& SHORT_WEIGHT_SIGN_MASK) != 0#16 then ~~~SHORT_WEIGHT_MASK ||| (b.header &&& SHORT_WEIGHT_MASK)
  else b.header &&& SHORT_WEIGHT_MASK
/-- src/binary.rs:280 `weight`; reading the weight word of a long header that is absent is a fault. -/
def weight (b : Bin) : M (BitVec 16) :=
  if b.headerIsShort then pure b.weightShort
  else match b.rest with
    | w :: _ => pure w
    | [] => throw .oob
/-- src/binary.rs:377 `is_negative`. -/
def isNegative (b : Bin) : Bool := b.sign == NEG
/-- src/binary.rs:382 `is_positive`. -/
def isPositive (b : Bin) : Bool := b.sign == POS

/-- Reading `n` digits behind the header (src/binary.rs:99-101 `as_slice`): beyond the bytes is a fault. -/
def readDigits (ws : List (BitVec 16)) (n : Nat) : M (List Int) :=
  if n ≤ ws.length then pure ((ws.take n).map BitVec.toInt) else throw .oob

/-- The size in bytes of the slice behind a `Numeric`. -/
def size (b : Bin) : Nat := 6 + 2 * b.rest.length

/-- src/binary.rs:433-480 `as_var`, with the debug assertion of `as_binary` (src/num.rs:411). A length word
smaller than the header is a `u32` subtraction overflow; a release build wraps it and reads about 2^31 digits, behind the end of
the slice (`Verif/Model/Untrusted.lean` does this step by step). -/
def asVar [Build] (b : Bin) : M Var := do
  dassert (b.len = b.size)
  if b.flagBits = SHORT then
    if b.len < 6 then throw (if Build.debug then .overflow else .oob)
    let ds ← readDigits b.rest ((b.len - 6) / 2)
    let sign := if (b.header &&& SHORT_SIGN_MASK) != 0#16 then Sign.neg else Sign.pos
    pure ⟨b.weightShort.toInt, ((b.header &&& SHORT_DSCALE_MASK) >>> 7).toNat, sign, ds⟩
  else if b.flagBits = NAN then pure Var.nan
  else
    if b.len < 8 then throw (if Build.debug then .overflow else .oob)
    match b.rest with
    | [] => throw .oob
    | w :: ws =>
      let ds ← readDigits ws ((b.len - 8) / 2)
      pure ⟨w.toInt, (b.header &&& DSCALE_MASK).toNat, if b.flagBits = NEG then .neg else .pos, ds⟩

/-- src/binary.rs:399-409 `NumericBinary::nan` and src/num.rs:57 (`NumericVar::nan().into_numeric_buf()`):
6 bytes, header `0xC000`. -/
def nan [Build] : Bin := ⟨encodeLen 6#32, NAN, []⟩
/-- src/binary.rs:412-422 `NumericBinary::zero`. -/
def zero [Build] : Bin := ⟨encodeLen 6#32, SHORT, []⟩

/-- A 16-bit word on a little-endian host. -/
def bytes16 (w : BitVec 16) : List (BitVec 8) := [w.extractLsb' 0 8, w.extractLsb' 8 8]
/-- A 32-bit word on a little-endian host. -/
def bytes32 (w : BitVec 32) : List (BitVec 8) :=
  [w.extractLsb' 0 8, w.extractLsb' 8 8, w.extractLsb' 16 8, w.extractLsb' 24 8]

/-- src/num.rs:156, 403 `as_bytes`: the bytes of the numeric. -/
def asBytes (b : Bin) : List (BitVec 8) :=
  bytes32 b.vlLen ++ (b.header :: b.rest).flatMap bytes16

/-- Reassemble 16-bit words. -/
def words : List (BitVec 8) → Option (List (BitVec 16))
  | [] => some []
  | lo :: hi :: bs => (words bs).map ((hi ++ lo) :: ·)
  | [_] => none

/-- src/num.rs:382 `from_bytes_unchecked`: view a byte string (of even length at least 6) as a numeric. -/
def fromBytes : List (BitVec 8) → Option Bin
  | b0 :: b1 :: b2 :: b3 :: h0 :: h1 :: bs =>
    (words bs).map fun ws => ⟨b3 ++ b2 ++ b1 ++ b0, h1 ++ h0, ws⟩
  | _ => none

end Bin
end PgNumeric
