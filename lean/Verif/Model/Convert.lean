import Verif.Model.Num
/-!
# Conversions between integers and numerics (src/convert.rs)

A machine integer is modelled by its value in `Int` together with its type (range). A Rust `overflowing_*`
operation reports overflow iff the exact result is out of range; the code returns at once in that case, so the
wrapped value is never used.
-/
namespace PgNumeric

/-- An integer type: its range, the constant `MAX_NDIGITS` of its (absolute-value) type (src/convert.rs:99-105)
and whether it is signed. -/
structure IntTy where
  lo : Int
  hi : Int
  maxNdigits : Nat
  signed : Bool
  deriving DecidableEq, Repr

namespace IntTy
/-- src/convert.rs:197-201 (`AbsType`), 99-105 (`MAX_NDIGITS`). -/
def i8 : IntTy := ⟨-128, 127, 1, true⟩
def i16 : IntTy := ⟨-32768, 32767, 2, true⟩
def i32 : IntTy := ⟨-2147483648, 2147483647, 3, true⟩
def i64 : IntTy := ⟨-9223372036854775808, 9223372036854775807, 5, true⟩
def i128 : IntTy := ⟨-170141183460469231731687303715884105728, 170141183460469231731687303715884105727, 10, true⟩
def u8 : IntTy := ⟨0, 255, 1, false⟩
def u16 : IntTy := ⟨0, 65535, 2, false⟩
def u32 : IntTy := ⟨0, 4294967295, 3, false⟩
def u64 : IntTy := ⟨0, 18446744073709551615, 5, false⟩
def u128 : IntTy := ⟨0, 340282366920938463463374607431768211455, 10, false⟩

/-- `x` is a value of the type. -/
def InRange (ty : IntTy) (x : Int) : Prop := ty.lo ≤ x ∧ x ≤ ty.hi
instance (ty : IntTy) (x : Int) : Decidable (ty.InRange x) := inferInstanceAs (Decidable (_ ∧ _))
end IntTy

namespace Convert

/-- src/error.rs:77-81 `TryFromErrorKind`. -/
inductive Err where
  | invalid
  | overflow
  deriving DecidableEq, Repr

/-- The loop of `unsigned_to_var` (src/convert.rs:239-252): `i` is the number of digit cells still free below
the current one (`i -= 1` on 0 is a fault); `next_digit` (src/convert.rs:73-77) splits off the last base-10000
digit. -/
def digitsLoop : Nat → Int → List Int → M (List Int)
  | 0, _, _ => throw .oob
  | i + 1, u, acc =>
    let new := u / NBASE
    let digit := u - new * NBASE
    if new = 0 then pure (digit :: acc) else digitsLoop i new (digit :: acc)

/-- `u8::next_digit` (src/convert.rs:111-113) makes the loop of `unsigned_to_var` stop after one digit. -/
def digits (maxNdigits : Nat) (u : Int) : M (List Int) :=
  if maxNdigits = 1 then pure [u] else digitsLoop maxNdigits u []

/-- src/convert.rs:232-257 `unsigned_to_var`. -/
def unsignedToVar (maxNdigits : Nat) (u : Int) (sign : Sign) : M Var := do
  let ds ← digits maxNdigits u
  pure ⟨(ds.length : Int) - 1, 0, sign, ds⟩

/-- src/convert.rs:179-185 `Signed::abs`. -/
def absT (x : Int) : Int := if x ≥ 0 then x else -(x + 1) + 1

/-- src/convert.rs:208-220 `from_signed`, 224-230 `from_unsigned`. -/
def fromInt (ty : IntTy) (x : Int) : M Var :=
  if x = 0 then pure Var.zero
  else if ty.signed then unsignedToVar ty.maxNdigits (absT x) (if x < 0 then .neg else .pos)
  else unsignedToVar ty.maxNdigits x .pos

/-- src/convert.rs:324-354 `From<iN>` and `From<uN>` for `NumericBuf`. -/
def ofInt [Build] (ty : IntTy) (x : Int) : M Bin := do
  let v ← fromInt ty x
  Num.finishNoOverflow v

/-- src/convert.rs:357-363 `From<bool>`. -/
def ofBool [Build] (b : Bool) : M Bin := ofInt .u8 (if b then 1 else 0)

/-- The accumulation loop of `into_signed` (src/convert.rs:446-463, `op a d = a - d`) and of `into_unsigned`
(src/convert.rs:505-522, `op a d = a + d`): `k` iterations left, loop variable `i`. -/
def accLoop (ty : IntTy) (op : Int → Int → Int) (ds : List Int) : Nat → Nat → Int → M (Except Err Int)
  | 0, _, val => pure (.ok val)
  | k + 1, i, val =>
    if ¬ ty.InRange (val * NBASE) then pure (.error .overflow)
    else if i < ds.length then do
      let d ← getM ds i
      if ¬ ty.InRange (op (val * NBASE) d) then pure (.error .overflow)
      else accLoop ty op ds k (i + 1) (op (val * NBASE) d)
    else accLoop ty op ds k (i + 1) (val * NBASE)

/-- `T::from_numeric_digit` / `T::from_i64` (src/convert.rs:156-168): the debug assertions. -/
def castT [Build] (ty : IntTy) (x : Int) : M Int := do
  dassert (x ≤ ty.hi)
  dassert (x ≥ ty.lo)
  pure x

/-- `-self` in `T` (src/convert.rs:176): out of range is an overflow. -/
def negT (ty : IntTy) (x : Int) : M Int := if ty.InRange (-x) then pure (-x) else throw .overflow

/-- The end of `into_signed` (src/convert.rs:465-473). -/
def signedEnd (ty : IntTy) (neg : Bool) : Except Err Int → M (Except Err Int)
  | .error e => pure (.error e)
  | .ok val =>
    if neg then pure (.ok val)
    else if val = ty.lo then pure (.error .overflow)
    else do
      let n ← negT ty val
      pure (.ok n)

/-- src/convert.rs:415-473 `into_signed`. -/
def intoSigned [Build] (ty : IntTy) (v : Var) : M (Except Err Int) :=
  if v.sign = .nan then pure (.error .invalid)
  else do
    let r ← Var.roundCommon v 0
    let r ← Var.stripM r
    if r.digits.length = 0 then pure (.ok 0)
    else do
      dassert (r.weight ≥ 0)
      dassert ((r.digits.length : Int) ≤ r.weight + 1)
      let d ← getM r.digits 0
      let d ← castT ty d
      let val ← negT ty d
      let res ← accLoop ty (· - ·) r.digits r.weight.toNat 1 val
      signedEnd ty (r.sign = .neg) res

/-- src/convert.rs:476-526 `into_unsigned`. -/
def intoUnsigned [Build] (ty : IntTy) (v : Var) : M (Except Err Int) :=
  if v.sign = .nan then pure (.error .invalid)
  else do
    let r ← Var.roundCommon v 0
    let r ← Var.stripM r
    if r.digits.length = 0 then pure (.ok 0)
    else if r.sign = .neg then pure (.error .overflow)
    else do
      dassert (r.weight ≥ 0)
      dassert ((r.digits.length : Int) ≤ r.weight + 1)
      let val ← getM r.digits 0
      accLoop ty (· + ·) r.digits r.weight.toNat 1 val

/-- src/convert.rs:564-589 `TryFrom<NumericVar>` for `i8` and `u8`: via the 16-bit type. -/
def narrow (ty : IntTy) : Except Err Int → Except Err Int
  | .error e => .error e
  | .ok val => if val > ty.hi ∨ val < ty.lo then .error .overflow else .ok val

/-- `TryFrom<&Numeric>` for an integer type (src/convert.rs:528-560, 564-589, 677-706). -/
def toInt [Build] (ty : IntTy) (a : Bin) : M (Except Err Int) := do
  let v ← a.asVar
  if ty = .i8 then
    let r ← intoSigned .i16 v
    pure (narrow ty r)
  else if ty = .u8 then
    let r ← intoUnsigned .u16 v
    pure (narrow ty r)
  else if ty.signed then intoSigned ty v
  else intoUnsigned ty v

/-- `From<isize>`/`From<usize>` and the conversions back (src/convert.rs:365-387, 591-624): the 64-bit type on a
64-bit host, the 32-bit type on a 32-bit host. -/
def sizeTy (signed : Bool) (bits64 : Bool) : IntTy :=
  if bits64 then (if signed then .i64 else .u64) else (if signed then .i32 else .u32)

end Convert
end PgNumeric
