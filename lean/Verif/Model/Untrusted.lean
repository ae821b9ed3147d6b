import Verif.Model.Num
import Verif.Model.Text
import Mathlib.Data.Int.Notation
import Mathlib.Data.Nat.Notation
/-!
# Deserialising bytes from outside (src/num.rs:347-355), byte by byte

`Num.deserialize` (`Verif/Model/Text.lean`) views byte strings of even length at least 6 as words. Here any byte string is allowed.
-/
namespace PgNumeric.Untrusted

/-- A 16-bit load from byte `i` (little-endian host); behind the end of the slice it is a fault. -/
def load16 (bs : List (BitVec 8)) (i : ℕ) : M (BitVec 16) :=
  match bs[i]?, bs[i + 1]? with
  | some lo, some hi => pure (hi ++ lo)
  | _, _ => throw .oob

/-- A 32-bit load from byte `i`. -/
def load32 (bs : List (BitVec 8)) (i : ℕ) : M (BitVec 32) := do
  let lo ← load16 bs i
  let hi ← load16 bs (i + 2)
  pure (hi ++ lo)

/-- src/binary.rs:98-100 `as_slice`, and copying it (src/data.rs:289): `n` digits from byte `off`. -/
def loadDigits (bs : List (BitVec 8)) : ℕ → ℕ → M (List Int)
  | _, 0 => pure []
  | off, n + 1 => do
    let w ← load16 bs off
    let ds ← loadDigits bs (off + 2) n
    pure (w.toInt :: ds)

/-- `len - size` in `u32` (src/binary.rs:437, 466): a panic in a debug build, wraps in a release build. -/
def sub32 [Build] (a b : ℕ) : M ℕ := if b ≤ a then pure (a - b) else if Build.debug then throw .overflow else pure (a + 2 ^ 32 - b)

/-- src/num.rs:407-419 `as_binary` (with its debug assertion) and src/binary.rs:433-480 `as_var`. -/
def asVar [Build] (bs : List (BitVec 8)) : M Var := do
  let vl ← load32 bs 0
  let len := (Bin.decodeLen vl).toNat
  dassert (len = bs.length)
  let h ← load16 bs 4
  if h &&& Bin.SIGN_MASK = Bin.SHORT then
    let n ← sub32 len 6
    let ds ← loadDigits bs 6 (n / 2)
    let sign := if (h &&& Bin.SHORT_SIGN_MASK) != 0#16 then Sign.neg else Sign.pos
    pure ⟨(Bin.weightShort ⟨vl, h, []⟩).toInt, ((h &&& Bin.SHORT_DSCALE_MASK) >>> 7).toNat, sign, ds⟩
  else if h &&& Bin.SIGN_MASK = Bin.NAN then pure Var.nan
  else
    let n ← sub32 len 8
    let w ← load16 bs 6
    let ds ← loadDigits bs 8 (n / 2)
    pure ⟨w.toInt, (h &&& Bin.DSCALE_MASK).toNat, if h &&& Bin.SIGN_MASK = Bin.NEG then .neg else .pos, ds⟩

/-- src/num.rs:347-355 `visit_bytes`: `from_bytes_unchecked(v).to_owned()` (src/num.rs:968-975). -/
def deserialize [Build] (bs : List (BitVec 8)) : M Bin := do
  let v ← asVar bs
  if v.sign = .nan then Num.nan else Bin.intoBuf v

/-! ## Comparing numbers with any 16-bit digits

`Num.cmp` compares digits in 0..9999, whose difference fits into `i16`. A number from outside may have other digits. -/

/-- The difference of two digits in `i16` (src/var.rs:618-621): a panic in a debug build, wraps in a release build. -/
def sub16 [Build] (a b : Int) : M Int :=
  if -32768 ≤ a - b ∧ a - b ≤ 32767 then pure (a - b) else if Build.debug then throw .overflow else pure ((a - b + 32768) % 65536 - 32768)

/-- src/var.rs:616-648: the common digits, then the remaining loops. -/
def cmpDigits [Build] : List Int → List Int → M Int
  | d1 :: ds1, d2 :: ds2 => do
    let stat ← sub16 d1 d2
    if stat ≠ 0 then pure (if stat > 0 then 1 else -1) else cmpDigits ds1 ds2
  | ds1, ds2 => pure (Var.cmpRest ds1 ds2)

/-- src/var.rs:580-649 `cmp_abs`. -/
def cmpAbs [Build] (a b : Var) : M Int :=
  match Var.cmpLead a.digits a.weight b.weight with
  | none => pure 1
  | some (ds1, w1) =>
    match Var.cmpLead b.digits b.weight w1 with
    | none => pure (-1)
    | some (ds2, w2) => if w1 = w2 then cmpDigits ds1 ds2 else pure (Var.cmpRest ds1 ds2)

/-- src/var.rs:1537-1566 `cmp_common`. -/
def cmpCommon [Build] (a b : Var) : M Int :=
  if a.ndigits = 0 then
    if b.ndigits = 0 then pure 0 else if b.sign = .neg then pure 1 else pure (-1)
  else if b.ndigits = 0 then
    if a.sign = .pos then pure 1 else pure (-1)
  else if a.sign = .pos then
    if b.sign = .neg then pure 1 else cmpAbs a b
  else if b.sign = .pos then pure (-1)
  else cmpAbs b a

/-- src/num.rs:885-908 `cmp`. -/
def cmp [Build] (a b : Bin) : M Ordering := do
  Num.asBinary a
  Num.asBinary b
  if a.isNan then
    if b.isNan then pure .eq else pure .gt
  else if b.isNan then pure .lt
  else
    let x ← a.asVar
    let y ← b.asVar
    let c ← cmpCommon x y
    pure (if c > 0 then .gt else if c < 0 then .lt else .eq)

/-! ## Printing numbers with any 16-bit digits

`Text.write` prints digits in 0..9999. The formatting of `i16` puts a minus sign in front of a negative digit; the sign counts for the width. -/

/-- `{}` of an `i16` (src/var.rs:2133). -/
def decI (d : Int) : Str := if d < 0 then 45 :: Text.dec d.natAbs else Text.dec d.toNat

/-- `{:>0width$}` of an `i16` (src/var.rs:2131, 2155, 2160): the `0` flag puts the zeros between the sign and the digits. -/
def padI (width : Nat) (d : Int) : Str := if d < 0 then 45 :: Text.pad (width - 1) d.natAbs else Text.pad width d.toNat

/-- `(0..k).fold(dig, |acc, _| acc / 10)` (src/var.rs:2159): Rust divides towards zero. -/
def divTenI : Nat → Int → Int
  | 0, n => n
  | k + 1, n => divTenI k (n.tdiv 10)

/-- src/var.rs:2121-2137. -/
def intLoop [Build] (ds : List Int) : Nat → Int → M Str
  | 0, _ => pure []
  | n + 1, d => do
    let dig := Var.digitAt ds d
    dassert (dig ≥ 0)
    let rest ← intLoop ds n (d + 1)
    pure ((if d > 0 then padI 4 dig else decI dig) ++ rest)

/-- src/var.rs:2151-2169. -/
def fracLoop (ds : List Int) (dscale : Int) : Nat → Int → Int → Str
  | 0, _, _ => []
  | n + 1, d, scale =>
    let dig := Var.digitAt ds d
    (if scale + 4 ≤ dscale then padI 4 dig
     else
      let width := (dscale - scale).toNat
      padI width (divTenI (4 - width) dig)) ++
    fracLoop ds dscale n (d + 1) (scale + 4)

/-- src/var.rs:2103-2174 `write`. -/
def write [Build] (v : Var) : M Str := do
  if v.sign = .nan then pure (str "NaN")
  else
    fits [v.weight + 1, v.weight + 1 + (v.dscale + 3) / 4, v.dscale + 3]
    let sgn := if v.sign = .neg then str "-" else []
    let int ← if v.weight < 0 then pure (str "0") else intLoop v.digits (v.weight + 1).toNat 0
    let frac := if v.dscale > 0 then str "." ++ fracLoop v.digits v.dscale ((v.dscale + 3) / 4).toNat (v.weight + 1) 0 else []
    pure (sgn ++ int ++ frac)

/-- src/num.rs:252-257, 984-989 `Display`. -/
def display [Build] (a : Bin) : M Str := do
  Num.asBinary a
  let v ← a.asVar
  write v

end PgNumeric.Untrusted
