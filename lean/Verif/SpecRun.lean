import Verif.SpecApi
import Verif.SpecText
import Verif.Proofs.Convert
/-!
# Independent specification of histories

Straight-line programs over a growing list of registers, evaluated on exact rationals.
-/
namespace PgNumeric.Spec

/-- An exact result: NaN, or a rational with a display scale. -/
inductive Val
  | nan
  | num (x : ℚ) (scale : ℤ)

/-- The extended value of a result, for comparisons: NaN is larger than every number. -/
def Val.key : Val → WithTop ℚ
  | .nan => ⊤
  | .num x _ => (x : WithTop ℚ)

/-- The two-operand operations. -/
inductive Op2 | add | sub | mul | div | divTrunc | rem

/-- The one-operand operations. -/
inductive Op1 | negate | abs | signum | inc | ceil | floor | round (n : ℤ) | trunc (n : ℤ) | copy

/-- The operation on rationals: exact result and scale, or `none` for division by zero. -/
def Op2.raw : Op2 → ℚ × ℤ → ℚ × ℤ → Option (ℚ × ℤ)
  | .add, (x, s), (y, t) => some (x + y, max s t)
  | .sub, (x, s), (y, t) => some (x - y, max s t)
  | .mul, (x, s), (y, t) => some (x * y, s + t)
  | .div, (x, s), (y, t) =>
    if y = 0 then none else some (roundHalfAway (x / y) (quotientScale x y s t), quotientScale x y s t)
  | .divTrunc, (x, _), (y, _) => if y = 0 then none else some (truncTo (x / y) 0, 0)
  | .rem, (x, s), (y, t) => if y = 0 then none else some (x - truncTo (x / y) 0 * y, max s t)

/-- A result is representable: below `10^131072` in magnitude, at most 16383 decimal places. -/
def InRange : ℚ × ℤ → Prop
  | (x, s) => |x| < limit ∧ s ≤ 16383

/-- The exact result of a two-operand operation, if there is one and it is representable. NaN is contagious. -/
def Op2.Exact (op : Op2) : Val → Val → Val → Prop
  | .num x s, .num y t, r => ∃ p, op.raw (x, s) (y, t) = some p ∧ InRange p ∧ r = .num p.1 p.2
  | _, _, r => r = .nan

/-- The operation on rationals. Requested scales are limited to ±1000. -/
def Op1.raw : Op1 → ℚ × ℤ → ℚ × ℤ
  | .negate, (x, s) => (-x, s)
  | .abs, (x, s) => (|x|, s)
  | .signum, (x, _) => (if x < 0 then -1 else if x = 0 then 0 else 1, 0)
  | .inc, (x, s) => (x + 1, s)
  | .ceil, (x, _) => ((⌈x⌉ : ℤ), 0)
  | .floor, (x, _) => ((⌊x⌋ : ℤ), 0)
  | .round n, (x, _) => (roundHalfAway x (max (-1000) (min 1000 n)), max (max (-1000) (min 1000 n)) 0)
  | .trunc n, (x, _) => (truncTo x (max (-1000) (min 1000 n)), max (max (-1000) (min 1000 n)) 0)
  | .copy, (x, s) => (x, s)

/-- The exact result of a one-operand operation, if representable. -/
def Op1.Exact (op : Op1) : Val → Val → Prop
  | .num x s, r => InRange (op.raw (x, s)) ∧ r = .num (op.raw (x, s)).1 (op.raw (x, s)).2
  | .nan, r => r = .nan

/-- One step of a program: it appends one register. Registers are named by their position. -/
inductive Instr
  /-- parse a text -/
  | lit (s : Str)
  /-- convert an integer -/
  | int (ty : IntTy) (n : ℤ)
  | op1 (op : Op1) (i : ℕ)
  | op2 (op : Op2) (i j : ℕ)
  /-- `if regs[i] <= regs[j] { regs[k] } else { regs[l] }` -/
  | select (i j k l : ℕ)

/-- The literal `s` denotes the value `r`, within the documented limits. -/
def LitExact (s : Str) (r : Val) : Prop :=
  (NaNLiteral s ∧ r = .nan) ∨
  ∃ neg int frac exp, Literal s neg int frac exp ∧ |exp| < exponentLimit ∧ (frac.length : ℤ) - exp ≤ 16383 ∧
    (int.length : ℤ) + exp ≤ 131072 ∧ r = .num (numeralValue neg int frac exp) (max 0 (frac.length - exp))

/-- The exact meaning of one step over exact registers. -/
def Instr.Exact (env : List Val) : Instr → Val → Prop
  | .lit s, r => LitExact s r
  | .int _ n, r => r = .num n 0
  | .op1 op i, r => ∃ a, env[i]? = some a ∧ op.Exact a r
  | .op2 op i j, r => ∃ a b, env[i]? = some a ∧ env[j]? = some b ∧ op.Exact a b r
  | .select i j k l, r => ∃ a b, env[i]? = some a ∧ env[j]? = some b ∧
      if a.key ≤ b.key then env[k]? = some r else env[l]? = some r

/-- `ExactRun prog env env'`: running `prog` on exact registers `env` succeeds and ends with registers `env'`. -/
inductive ExactRun : List Instr → List Val → List Val → Prop
  | nil {env} : ExactRun [] env env
  | cons {i prog env r env'} : i.Exact env r → ExactRun prog (env ++ [r]) env' → ExactRun (i :: prog) env env'

/-- Texts are shorter than `2^29` bytes and integers belong to one of the ten fixed-width types. -/
def Instr.Ok : Instr → Prop
  | .lit s => s.length < 2 ^ 29
  | .int ty n => ty ∈ Convert.types ∧ ty.lo ≤ n ∧ n ≤ ty.hi
  | _ => True

/-- The bytes `b` represent the exact result `v`, canonically. -/
def Represents [Build] (b : Bin) : Val → Prop
  | .nan => IsNaN b
  | .num x s => Holds b x s

end PgNumeric.Spec
