import Verif.Model.Num
/-!
# Type modifiers (src/typmod.rs, src/var.rs:2632-2677, src/num.rs:141-152)
-/
namespace PgNumeric

/-- src/typmod.rs:26 `Typmod(i32)`. -/
abbrev Typmod := BitVec 32

namespace Typmod

/-- src/typmod.rs:36-41 `new_unchecked` (with its debug assertions). -/
def newUnchecked [Build] (precision scale : BitVec 32) : M Typmod := do
  dassert (precision.toInt ≥ 1 ∧ precision.toInt ≤ NUMERIC_MAX_PRECISION)
  dassert (scale.toInt ≥ 0 ∧ scale.toInt ≤ precision.toInt)
  pure (((precision <<< 16) ||| scale) + 4#32)

/-- src/typmod.rs:62-68 `new`. -/
def new [Build] (precision scale : BitVec 32) : M (Option Typmod) :=
  if precision.toInt < 1 ∨ precision.toInt > NUMERIC_MAX_PRECISION ∨ scale.toInt < 0 ∨ scale.toInt > precision.toInt then
    pure none
  else do
    let t ← newUnchecked precision scale
    pure (some t)

/-- src/typmod.rs:50-54 `with_precision_unchecked`. -/
def withPrecisionUnchecked [Build] (precision : BitVec 32) : M Typmod := do
  dassert (precision.toInt ≥ 1 ∧ precision.toInt ≤ NUMERIC_MAX_PRECISION)
  pure ((precision <<< 16) + 4#32)

/-- src/typmod.rs:76-82 `with_precision`. -/
def withPrecision [Build] (precision : BitVec 32) : M (Option Typmod) :=
  if precision.toInt < 1 ∨ precision.toInt > NUMERIC_MAX_PRECISION then pure none
  else do
    let t ← withPrecisionUnchecked precision
    pure (some t)

/-- src/typmod.rs:89-91 `from_value_unchecked`. -/
def fromValueUnchecked (value : BitVec 32) : Typmod := value
/-- src/typmod.rs:95-97 `value`. -/
def value (t : Typmod) : BitVec 32 := t

/-- src/typmod.rs:101-104 `extract`: `t - 4` is an `i32` subtraction, `>>` an arithmetic shift. -/
def extract [Build] (t : Typmod) : M (BitVec 32 × BitVec 32) := do
  let _ ← i32 (t.toInt - 4)
  let t := t - 4#32
  pure ((t.sshiftRight 16) &&& 0xFFFF#32, t &&& 0xFFFF#32)

/-- src/typmod.rs:109-111 `default`. -/
def default : Typmod := BitVec.ofInt 32 (-1)

end Typmod

namespace Var

/-- The digit scan of `apply_typmod` (src/var.rs:2653-2673). -/
def typmodScan : List Int → Int → Int → Bool
  | [], _, _ => false
  | dig :: ds, ddigits, maxDigits =>
    if dig ≠ 0 then
      let ddigits :=
        if dig < 10 then ddigits - 3
        else if dig < 100 then ddigits - 2
        else if dig < 1000 then ddigits - 1
        else ddigits
      decide (ddigits > maxDigits)
    else typmodScan ds (ddigits - DEC_DIGITS) maxDigits

/-- src/var.rs:2632-2677 `apply_typmod`: the updated variable and the overflow flag. -/
def applyTypmod [Build] (v : Var) (typmod : Typmod) : M (Var × Bool) :=
  if typmod.value.toInt < 4 then pure (v, false)
  else do
    let (precision, scale) ← typmod.extract
    let maxDigits ← i32 (precision.toInt - scale.toInt)
    let r ← roundCommon v scale.toInt
    fits [r.weight + 1]
    let ddigits ← i32 ((r.weight + 1) * DEC_DIGITS)
    fits [ddigits - r.ndigits * DEC_DIGITS - 3]
    pure (r, decide (ddigits > maxDigits) && typmodScan r.digits ddigits maxDigits)

end Var

namespace Num

/-- src/num.rs:141-152 `NumericBuf::apply_typmod`. The receiver afterwards is `none` when it is left holding the
null pointer that `as_var_owned` put there (src/num.rs:176-179); the flag is the returned `bool`.
`NumericBuf::into_var` reads the header fields one by one; `Proofs/Data.lean` shows that it yields `as_var`, with
a NaN keeping its NaN sign. -/
def applyTypmod [Build] (a : Bin) (typmod : Typmod) : M (Option Bin × Bool) := do
  let v ← a.asVar
  let (r, overflow) ← v.applyTypmod typmod
  match ← finish r with
  | some b => pure (some b, overflow)
  | none => pure (none, true)

end Num
end PgNumeric
