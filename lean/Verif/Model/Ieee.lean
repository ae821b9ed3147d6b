import Verif.Model.F64
/-!
# IEEE 754 numbers with their exponent range

`Model/F64.lean` has the arithmetic on doubles with an unbounded exponent range. Here are the floating-point numbers themselves, with
infinities, zeros and subnormals, and the conversion `f64 as f32`.
-/
namespace PgNumeric
namespace Convert

/-- A floating-point number: NaN, an infinity, or a finite number given by its sign and exact magnitude. Every
`f32` and `f64` is one of these; the model allows any rational magnitude. -/
inductive Float where
  | nan
  | inf (neg : Bool)
  | fin (neg : Bool) (q : ℚ)

/-- `is_infinite`. -/
def Float.isInfinite : Float → Bool
  | .inf _ => true
  | _ => false

/-- `f == 0.0` (both zeros compare equal). -/
def Float.isZero : Float → Bool
  | .fin _ q => q = 0
  | _ => false

end Convert

namespace F64

/-- An IEEE 754 binary format: `prec` significant bits, spacing `2^emin` of the smallest numbers, all finite numbers below
`2^emax`. -/
structure Format where
  prec : ℕ
  emin : ℤ
  emax : ℤ

/-- `f32` -/
def single : Format := ⟨24, -149, 128⟩
/-- `f64` -/
def double : Format := ⟨53, -1074, 1024⟩

/-- The spacing of the format around `q > 0` is two to this power. -/
def Format.unit (F : Format) (q : ℚ) : ℤ := max (log2 q - (F.prec - 1)) F.emin

/-- The number of the format nearest to `q ≥ 0`, ties to even, ignoring overflow. -/
def Format.nearest (F : Format) (q : ℚ) : ℚ :=
  if q = 0 then 0 else (roundEven (q / 2 ^ F.unit q) : ℚ) * 2 ^ F.unit q

/-- IEEE 754 round-to-nearest: sign `neg`, magnitude `q`. -/
def Format.round (F : Format) (neg : Bool) (q : ℚ) : Convert.Float :=
  if 2 ^ F.emax ≤ F.nearest q then .inf neg else .fin neg (F.nearest q)

/-- `x as f32` for an `f64`. -/
def castF32 : Convert.Float → Convert.Float
  | .nan => .nan
  | .inf neg => .inf neg
  | .fin neg q => single.round neg q

end F64
end PgNumeric
