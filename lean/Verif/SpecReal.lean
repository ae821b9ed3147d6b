import Verif.SpecClient
import Verif.SpecSqrt
import Verif.SpecPow
import Mathlib.Analysis.SpecialFunctions.Pow.Real
/-!
# Independent specification of programs that also take roots, logarithms, exponentials and powers

The specification of `Verif/SpecClient.lean`, extended by the functions whose results are rounded. These are described by what they may
give back: a number that is close to the exact real number, `None`, or a panic.
-/
namespace PgNumeric.Spec

/-- The functions of one number. -/
inductive Fun1
  | sqrt
  | ln
  | log2
  | log10
  | exp

/-- The functions of two numbers: `log` (the second is the base) and `pow` (the second is the exponent). -/
inductive Fun2
  | log
  | pow

/-- A call. -/
inductive RealAct
  | base (act : Act)
  | fun1 (f : Fun1) (i : ℕ)
  | fun2 (f : Fun2) (i j : ℕ)

/-- What the program gets back: in a debug build also an arithmetic overflow, which the program catches like any other panic. -/
inductive RealAnswer
  | plain (a : Answer)
  | overflow

/-- What may become of a call of `Fun1` or `Fun2`. -/
inductive Outcome
  /-- a new number -/
  | number (v : Val)
  | none
  | panic (msg : String)
  | overflow

def Outcome.answer : Outcome → RealAnswer
  | .number _ => .plain .number
  | .none => .plain .none
  | .panic msg => .plain (.panic msg)
  | .overflow => .overflow

/-- What the program owns afterwards. -/
def Outcome.owned : Outcome → List Slot → List Slot
  | .number v, l => l ++ [.val v]
  | _, l => l

/-- `y` is within `e` units of the last of `t` decimals of the real number `r`. -/
def Close (y : ℚ) (r : ℝ) (e : ℝ) (t : ℤ) : Prop := |(y:ℝ) - r| ≤ e * 10 ^ (-t)

/-- The relative error is at most `e`. -/
def Relative (y : ℚ) (r : ℝ) (e : ℝ) : Prop := |(y:ℝ) - r| ≤ |r| * e

/-- The functions of one number that are logarithms. -/
def Fun1.isLog : Fun1 → Prop
  | .ln | .log2 | .log10 => True
  | _ => False

/-- The message for a logarithm of a number that is not positive. -/
def logMessage (x : ℚ) : String := if x = 0 then "cannot take logarithm of zero" else "cannot take logarithm of a negative number"

/-- Only roots of numbers with many digits may overflow: if `x < 10^k` has `s` decimals, then `2s + k` is above 128. -/
def LongRoot (x : ℚ) (s : ℤ) : Prop := ∀ k : ℤ, x < 10 ^ k → 128 < 2 * s + k

/-- Only logarithms of numbers of at least `10^136` or with more than `n` decimals may overflow. -/
def LongLog (n : ℤ) (x : ℚ) (s : ℤ) : Prop := 10 ^ 136 ≤ x ∨ n < s

/-- Only powers of numbers of at least `10^136`, or with more than ten decimals in base or exponent, or above `e^57`, may overflow. -/
def LongPow (x y : ℚ) (s t : ℤ) : Prop := 10 ^ 136 ≤ x ∨ 10 < s ∨ 10 < t ∨ 57 < (y:ℝ) * Real.log x

/-- The decimals for which logarithms do not overflow. -/
def Fun1.decimals : Fun1 → ℤ
  | .ln => 38
  | _ => 13

/-- What a function of one number may do. -/
inductive May1 [Build] : Fun1 → Val → Outcome → Prop
  | nan {f} : May1 f .nan (.number .nan)
  | sqrt {x y : ℚ} {s : ℤ} : 0 ≤ x → Close y (√(x:ℝ)) (1 / 2 + 16 / 10 ^ 9) (sqrtScale x s) →
      May1 .sqrt (.num x s) (.number (.num y (sqrtScale x s)))
  | sqrtNegative {x : ℚ} {s : ℤ} : x < 0 → May1 .sqrt (.num x s) (.panic "cannot take square root of a negative number")
  | sqrtTiny {x : ℚ} {s : ℤ} : 0 < x → x < 10 ^ (-2016:ℤ) → May1 .sqrt (.num x s) (.panic "should not be zero")
  | sqrtOverflow {x : ℚ} {s : ℤ} : Build.debug = true → 0 < x → LongRoot x s → May1 .sqrt (.num x s) .overflow
  | ln {x y : ℚ} {s t : ℤ} : 0 < x → min s 1000 ≤ t → t ≤ 1000 → Close y (Real.log x) (1 / 2 + (t + 10) * max 1 (22 * |Real.log x|) / 10 ^ 8) t →
      May1 .ln (.num x s) (.number (.num y t))
  | log2 {x y : ℚ} {s t : ℤ} : 0 < x → min s 1000 ≤ t → t ≤ 1000 → Close y (Real.logb 2 x) (51 / 100) t →
      (t = 1000 ∨ Relative y (Real.logb 2 x) (1 / 10 ^ 14)) → May1 .log2 (.num x s) (.number (.num y t))
  | log10 {x y : ℚ} {s t : ℤ} : 0 < x → min s 1000 ≤ t → t ≤ 1000 → Close y (Real.logb 10 x) (51 / 100) t →
      (t = 1000 ∨ Relative y (Real.logb 10 x) (1 / 10 ^ 14)) → May1 .log10 (.num x s) (.number (.num y t))
  | logDomain {f} {x : ℚ} {s : ℤ} : Fun1.isLog f → x ≤ 0 → May1 f (.num x s) (.panic (logMessage x))
  | logOverflow {f} {x : ℚ} {s : ℤ} : Fun1.isLog f → Build.debug = true → 0 < x → LongLog f.decimals x s →
      May1 f (.num x s) .overflow
  | exp {x y : ℚ} {s t : ℤ} : |x| < 6000 + 1 / 10 ^ 9 → min s 1000 ≤ t → t ≤ 1000 → Close y (Real.exp x) (51 / 100) t →
      (t = 1000 ∨ Relative y (Real.exp x) (1 / 10 ^ 15)) → May1 .exp (.num x s) (.number (.num y t))
  | expNone {x : ℚ} {s : ℤ} : 6000 - 1 / 10 ^ 9 < |x| → May1 .exp (.num x s) .none

/-- The exponent is a 32-bit integer. -/
def IntExponent (y : ℚ) : Prop := ∃ k : ℤ, y = k ∧ IsI32 k

/-- What a function of two numbers may do. -/
inductive May2 [Build] : Fun2 → Val → Val → Outcome → Prop
  | logNanLeft {v} : May2 .log .nan v (.number .nan)
  | logNanRight {v} : May2 .log v .nan (.number .nan)
  | log {x y z : ℚ} {s t q : ℤ} : 0 < x → 0 < y → min (max s t) 1000 ≤ q → q ≤ 1000 → Close z (Real.logb y x) (51 / 100) q →
      (q = 1000 ∨ Relative z (Real.logb y x) (1 / 10 ^ 14)) → May2 .log (.num x s) (.num y t) (.number (.num z q))
  | logZero {x y : ℚ} {s t : ℤ} : x = 0 ∨ (0 < x ∧ y = 0) → May2 .log (.num x s) (.num y t) (.panic "cannot take logarithm of zero")
  | logNegative {x y : ℚ} {s t : ℤ} : x < 0 ∨ (0 < x ∧ y < 0) → May2 .log (.num x s) (.num y t) (.panic "cannot take logarithm of a negative number")
  | logOverflow {x y : ℚ} {s t : ℤ} : Build.debug = true → 0 < x → 0 < y → LongLog 13 x s ∨ LongLog 13 y t →
      May2 .log (.num x s) (.num y t) .overflow
  /-- `NaN^0 = 1^NaN = 1` -/
  | powNanZero {t : ℤ} : May2 .pow .nan (.num 0 t) (.number (.num 1 0))
  | powNanLeft {y : ℚ} {t : ℤ} : y ≠ 0 → May2 .pow .nan (.num y t) (.number .nan)
  | powNanBoth : May2 .pow .nan .nan (.number .nan)
  | powOneNan {s : ℤ} : May2 .pow (.num 1 s) .nan (.number (.num 1 0))
  | powNanRight {x : ℚ} {s : ℤ} : x ≠ 1 → May2 .pow (.num x s) .nan (.number .nan)
  | powZeroNegative {y : ℚ} {s t : ℤ} : y < 0 → May2 .pow (.num 0 s) (.num y t) (.panic "zero raised to a negative power is undefined")
  | powComplex {x y : ℚ} {s t : ℤ} : x < 0 → (∀ n : ℤ, y ≠ n) →
      May2 .pow (.num x s) (.num y t) (.panic "a negative number raised to a non-integer power yields a complex result")
  | powZeroBase {y : ℚ} {s t : ℤ} : 0 < y → IntExponent y → May2 .pow (.num 0 s) (.num y t) (.number (.num 0 (powerScale s)))
  | powZeroBaseReal {y : ℚ} {s t : ℤ} : 0 < y → ¬ IntExponent y → May2 .pow (.num 0 s) (.num y t) (.number (.num 0 16))
  /-- exponents 0, 1 and -1 -/
  | powZero {x : ℚ} {s t : ℤ} : May2 .pow (.num x s) (.num 0 t) (.number (.num 1 (powerScale s)))
  | powOne {x : ℚ} {s t : ℤ} : |roundHalfAway x (powerScale s)| < limit →
      May2 .pow (.num x s) (.num 1 t) (.number (.num (roundHalfAway x (powerScale s)) (powerScale s)))
  | powOneNone {x : ℚ} {s t : ℤ} : limit ≤ |roundHalfAway x (powerScale s)| → May2 .pow (.num x s) (.num 1 t) .none
  | powInverse {x : ℚ} {s t : ℤ} : x ≠ 0 → May2 .pow (.num x s) (.num (-1) t) (.number (.num (roundHalfAway (1 / x) (powerScale s)) (powerScale s)))
  | powSquare {x y : ℚ} {s t : ℤ} : x ≠ 0 → |y - x ^ 2| ≤ (1 / 2 + ((leadWeight x + 1 + (s + 3) / 4 : ℤ) : ℚ) / 10 ^ 4) * 10 ^ (-powerScale s) →
      |y| < limit → May2 .pow (.num x s) (.num 2 t) (.number (.num y (powerScale s)))
  | powSquareNone {x y : ℚ} {s t : ℤ} : x ≠ 0 → |y - x ^ 2| ≤ (1 / 2 + ((leadWeight x + 1 + (s + 3) / 4 : ℤ) : ℚ) / 10 ^ 4) * 10 ^ (-powerScale s) →
      limit ≤ |y| → May2 .pow (.num x s) (.num 2 t) .none
  /-- larger integer exponents; the second case is the defect that the code decides from the leading part of the base alone that a power is
  below the last decimal -/
  | powLarge {x y : ℚ} {s t : ℤ} {k : ℕ} : x ≠ 0 → 3 ≤ k → k < 2 ^ 31 →
      |y - x ^ k| ≤ (1 / 2 + (|x| / leadPart x) ^ k / 40000) * 10 ^ (-powerScale s) →
      May2 .pow (.num x s) (.num k t) (.number (.num y (powerScale s)))
  | powVanishes {x : ℚ} {s t : ℤ} {k : ℕ} : x ≠ 0 → 3 ≤ k → k < 2 ^ 31 → leadPart x ^ k ≤ 1 / 4 * 10 ^ (-powerScale s) →
      May2 .pow (.num x s) (.num k t) (.number (.num 0 (powerScale s)))
  | powLargeNone {x : ℚ} {s t : ℤ} {k : ℕ} : 3 ≤ k → k < 2 ^ 31 → (1 - 1 / 10 ^ 3) * limit ≤ |x ^ k| → May2 .pow (.num x s) (.num k t) .none
  | powNegative {x y : ℚ} {s t : ℤ} {k : ℕ} : x ≠ 0 → 2 ≤ k → k < 2 ^ 31 → |y - (x ^ k)⁻¹| ≤ (1 / 2 + 1 / 10 ^ 4) * 10 ^ (-powerScale s) →
      May2 .pow (.num x s) (.num (-k) t) (.number (.num y (powerScale s)))
  | powNegativeNone {x : ℚ} {s t : ℤ} {k : ℕ} : x ≠ 0 → 2 ≤ k → k < 2 ^ 31 → limit - 1 ≤ |(x ^ k)⁻¹| → May2 .pow (.num x s) (.num (-k) t) .none
  | powNegativeOverflow {x : ℚ} {s t : ℤ} {k : ℕ} : Build.debug = true → x ≠ 0 → 2 ≤ k → k < 2 ^ 31 →
      |x ^ k| < 10 ^ (powerScale s - 52) → May2 .pow (.num x s) (.num (-k) t) .overflow
  /-- exponents that are not 32-bit integers -/
  | powReal {x y z : ℚ} {s t q : ℤ} : 0 < x → ¬ IntExponent y → y * Real.log x ≤ 5999 → min (max s t) 1000 ≤ q → q ≤ 1000 →
      Close z ((x:ℝ) ^ (y:ℝ)) (52 / 100 + |Real.log x| / 10 ^ 5) q → (q = 1000 ∨ Relative z ((x:ℝ) ^ (y:ℝ)) (1 / 10 ^ 14)) →
      May2 .pow (.num x s) (.num y t) (.number (.num z q))
  | powHuge {x y : ℚ} {s t : ℤ} : 0 < x → ¬ IntExponent y → 5999 < y * Real.log x → May2 .pow (.num x s) (.num y t) .none
  | powHugeNumber {x y z : ℚ} {s t q : ℤ} : 0 < x → ¬ IntExponent y → 5999 < y * Real.log x → y * Real.log x < 6001 →
      May2 .pow (.num x s) (.num y t) (.number (.num z q))
  /-- powers below `e^-2290` come out wrong: any number, or `None` (C52) -/
  | powTiny {x y z : ℚ} {s t q : ℤ} : 0 < x → ¬ IntExponent y → y * Real.log x < -2290 → May2 .pow (.num x s) (.num y t) (.number (.num z q))
  | powTinyNone {x y : ℚ} {s t : ℤ} : 0 < x → ¬ IntExponent y → y * Real.log x < -2290 → May2 .pow (.num x s) (.num y t) .none
  | powOverflow {x y : ℚ} {s t : ℤ} : Build.debug = true → 0 < x → ¬ IntExponent y → LongPow x y s t → (x ≤ 9 / 10 ∨ 11 / 10 ≤ x ∨ 80 < s) →
      May2 .pow (.num x s) (.num y t) .overflow

/-- One call: what the program owned, what it gets back, what it owns then. -/
inductive RealStep [Build] : RealAct → List Slot → RealAnswer → List Slot → Prop
  | base {act l ans l'} : Step act l ans l' → RealStep (.base act) l (.plain ans) l'
  | fun1 {f i u o l} : l[i]? = some (.val u) → May1 f u o → RealStep (.fun1 f i) l o.answer (o.owned l)
  | fun2 {f i j u v o l} : l[i]? = some (.val u) → l[j]? = some (.val v) → May2 f u v o → RealStep (.fun2 f i j) l o.answer (o.owned l)

/-- Logarithms of numbers extremely close to one (but not one), and those to a base extremely close to one, fail (C50). -/
def Away (x : ℚ) (k : ℕ) : Prop := (10:ℚ) ^ (-(k:ℤ)) ≤ |x - 1|

/-- The arguments of `log` and `pow` that are covered. -/
def Fun2.Legal : Fun2 → Val → Val → Prop
  | .log, .num x _, .num y _ => 0 < x → 0 < y → (x = 1 ∨ Away x 900) ∧ Away y 190
  | .pow, .num x _, .num y _ =>
      (y = -2147483648 → x = 0) ∧ (x < 0 → (∃ n : ℤ, y = n) → IntExponent y) ∧ (0 < x → ¬ IntExponent y → x = 1 ∨ Away x 980)
  | _, _, _ => True

/-- The arguments of the functions of one number that are covered. -/
def Fun1.Legal : Fun1 → Val → Prop
  | .log2, .num x _ | .log10, .num x _ => 0 < x → x = 1 ∨ Away x 900
  | _, _ => True

/-- The calls a program may make. Excluded are, besides those of `Act.Legal`, logarithms and powers of numbers extremely close to one,
powers to the exponent -2147483648, and powers of a negative number to integers outside the range of `i32` (all of these are known to
fail). -/
def RealAct.Legal (l : List Slot) : RealAct → Prop
  | .base act => act.Legal l
  | .fun1 f i => ∃ u, l[i]? = some (.val u) ∧ f.Legal u
  | .fun2 f i j => ∃ u v, l[i]? = some (.val u) ∧ l[j]? = some (.val v) ∧ f.Legal u v

/-- The arguments for which a function of one number is not known to return: square roots where the iteration may oscillate (C34, C53), and
logarithms that start with such roots (C49). -/
def Fun1.MayHang : Fun1 → Val → Prop
  | .sqrt, .num x s => 0 < x ∧ (x < 10 ^ (-2000:ℤ) ∨ |Int.fract (√(x:ℝ) * 10 ^ (sqrtScale x s + 8)) - 1 / 4| ≤ 1 / 10 ^ 8)
  | .ln, .num x _ => 0 < x ∧ (x ≤ 9 / 10 ∨ 11 / 10 ≤ x)
  | .log2, .num x _ | .log10, .num x _ => 0 < x
  | _, _ => False

/-- The same for functions of two numbers. -/
def Fun2.MayHang : Fun2 → Val → Val → Prop
  | .log, .num x _, .num y _ => 0 < x ∧ 0 < y ∧ (x ≤ 9 / 10 ∨ 11 / 10 ≤ x ∨ y ≤ 9 / 10 ∨ 11 / 10 ≤ y)
  | .pow, .num x _, .num y _ => 0 < x ∧ (x ≤ 9 / 10 ∨ 11 / 10 ≤ x) ∧ ¬ IntExponent y
  | _, _, _ => False

/-- The calls that are not known to return. -/
def RealAct.MayHang (l : List Slot) : RealAct → Prop
  | .base _ => False
  | .fun1 f i => ∃ u, l[i]? = some (.val u) ∧ f.MayHang u
  | .fun2 f i j => ∃ u v, l[i]? = some (.val u) ∧ l[j]? = some (.val v) ∧ f.MayHang u v

/-- A program. -/
abbrev RealClient := List RealAnswer → Option RealAct

/-- Up to `n` calls, as in `Play`. -/
inductive RealPlay [Build] (c : RealClient) : ℕ → List Slot × List RealAnswer → List Slot × List RealAnswer → Prop
  | zero {s} : RealPlay c 0 s s
  | stop {n l h} : c h = none → RealPlay c (n + 1) (l, h) (l, h)
  | step {n act l h ans l' out} : c h = some act → RealStep act l ans l' → RealPlay c n (l', h ++ [ans]) out → RealPlay c (n + 1) (l, h) out

/-- The program makes only legal calls, whatever happens. -/
def RealClient.Legal [Build] (c : RealClient) (l : List Slot) (h : List RealAnswer) : Prop :=
  ∀ n l' h' act, RealPlay c n (l, h) (l', h') → c h' = some act → act.Legal l'

end PgNumeric.Spec
