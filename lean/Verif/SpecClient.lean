import Verif.SpecHeap
import Verif.SpecSci
import Verif.SpecFormat
import Verif.SpecFloat
import Verif.Model.Ieee
/-!
# Independent specification of the library as seen by a program

A program calls the library, looks at what it gets back and decides what to call next. The specification is a machine that keeps, for
every number the program owns, an exact rational and a scale (or NaN), and says what each call gives back.
-/
namespace PgNumeric.Spec

/-- A floating-point number as `==` sees it, i.e. without the sign of a zero. -/
inductive Seen
  | nan
  | inf (neg : Bool)
  | fin (q : ℚ)

def seen : Convert.Float → Seen
  | .nan => .nan
  | .inf neg => .inf neg
  | .fin neg q => .fin (if neg then -q else q)

/-- The conversion to `f32`: the single nearest to the nearest double; an error if this is an infinity but the double is not, or a zero but
the double is not. -/
def singleOf (x : ℚ) : Except Convert.Err Seen :=
  if 2 ^ 1024 - 2 ^ 970 ≤ |x| then .ok (.inf (decide (x < 0)))
  else if |x| ≤ 1 / 2 ^ 1075 then .ok (.fin 0)
  else if 2 ^ 128 - 2 ^ 103 - 2 ^ 74 ≤ |x| ∨ |x| ≤ 1 / 2 ^ 150 + 1 / 2 ^ 203 then .error .overflow
  else .ok (seen (.fin (decide (x < 0)) (F64.single.nearest (F64.double.nearest |x|))))

/-- What the program gets back from a call. -/
inductive Answer
  /-- a number: a new one, or the one that was changed in place -/
  | number
  /-- nothing (of a function without result) -/
  | unit
  /-- `None` -/
  | none
  /-- a panic with this message, which the program catches -/
  | panic (msg : String)
  /-- a failed debug assertion, which the program catches -/
  | assertion
  /-- a parse error -/
  | rejected (e : ParseError)
  | flag (b : Bool)
  | order (o : Ordering)
  | scale (s : Option ℤ)
  | text (s : Str)
  | int (r : Except Convert.Err ℤ)
  | float (r : Except Convert.Err Seen)
  | bytes (l : List ℕ)
  /-- a conversion error -/
  | refused (e : Convert.Err)

/-- A call. Numbers are named by their position in the order of creation. -/
inductive Act
  /-- `s.parse()` -/
  | parse (s : Str)
  /-- `NumericBuf::from(n)` -/
  | int (ty : IntTy) (n : ℤ)
  /-- `NumericBuf::factorial(n)` -/
  | factorial (n : ℤ)
  /-- `NumericBuf::zero()`, `NumericBuf::nan()`, `NumericBuf::from(b)` -/
  | zero
  | nan
  | bool (b : Bool)
  /-- `NumericBuf::try_from(f)` of an `f64` (`wide`) or an `f32` -/
  | float (wide : Bool) (f : Convert.Float)
  /-- `negate`, `abs`, `signum`, `inc`, `ceil`, `floor`, `round`, `trunc`, `to_owned` -/
  | op1 (op : Op1) (i : ℕ)
  /-- `checked_add`, `checked_sub`, `checked_mul`, `checked_div`, `checked_div_trunc`, `checked_rem` -/
  | checked (op : Op2) (i j : ℕ)
  /-- `+`, `-`, `*`, `/`, `%` -/
  | operator (op : Op2) (i j : ℕ)
  /-- the operators with operands that are passed by value: the left one if `left`, the right one if `right` -/
  | operatorTake (op : Op2) (left right : Bool) (i j : ℕ)
  /-- `x += &y`, `-=`, `*=`, `/=`, `%=` -/
  | assign (op : Op2) (i j : ℕ)
  /-- `x += y`, … where `y` is passed by value -/
  | assignTake (op : Op2) (i j : ℕ)
  /-- serialise and deserialise (`true`: as text, `false`: as bytes) -/
  | reread (human : Bool) (i : ℕ)
  /-- `clone` of an owned number -/
  | clone (i : ℕ)
  /-- `negate_mut`, `abs_mut`, `round_mut`, `trunc_mut`, `apply_typmod` -/
  | mutate (op : MutOp) (i : ℕ)
  | drop (i : ℕ)
  /-- `cmp`, `==`, `<`, `<=` -/
  | cmp (i j : ℕ)
  | eq (i j : ℕ)
  | lt (i j : ℕ)
  | le (i j : ℕ)
  /-- do both numbers feed the same data to a hasher? -/
  | sameHash (i j : ℕ)
  | isNan (i : ℕ)
  | isNegative (i : ℕ)
  | isPositive (i : ℕ)
  | scaleOf (i : ℕ)
  /-- `{}` -/
  | text (i : ℕ)
  /-- `{:e}` (letter 101) and `{:E}` (letter 69) -/
  | sci (letter : ℕ) (i : ℕ)
  | normalize (i : ℕ)
  /-- `try_into` an integer type -/
  | toInt (ty : IntTy) (i : ℕ)
  /-- `try_into` an `f64` (`wide`) or an `f32` -/
  | toFloat (wide : Bool) (i : ℕ)
  /-- `as_bytes` -/
  | bytes (i : ℕ)

/-- Number `i` is there and can be used. -/
def Live (l : List Slot) (i : ℕ) : Prop := ∃ v, l[i]? = some (.val v)

/-- The calls a program may make: safe Rust rules out numbers that were dropped, and naming a number twice in a call that takes or changes
it; texts are shorter than `2^29` bytes, integers belong to
one of the ten types, finite floating-point numbers are in the range of `f64`, type modifiers come from `Typmod::new`. Excluded are: uses of a number that `round_mut` or `apply_typmod` left with
a null pointer (C27), `apply_typmod` on NaN (C28), and `as_bytes` of a NaN. -/
def Act.Legal (l : List Slot) : Act → Prop
  | .parse s => s.length < 2 ^ 29
  | .int ty n => ty ∈ Convert.types ∧ ty.lo ≤ n ∧ n ≤ ty.hi
  | .factorial _ | .zero | .nan | .bool _ => True
  | .float _ f => ∀ neg q, f = .fin neg q → FloatRange q
  | .op1 _ i | .reread _ i | .clone i | .isNan i | .isNegative i | .isPositive i | .scaleOf i | .text i | .sci _ i | .normalize i | .toFloat _ i => Live l i
  | .checked _ i j | .cmp i j | .eq i j | .lt i j | .le i j | .sameHash i j => Live l i ∧ Live l j
  | .operator op i j => op ≠ .divTrunc ∧ Live l i ∧ Live l j
  | .operatorTake op left right i j => op ≠ .divTrunc ∧ Live l i ∧ Live l j ∧ (left = true ∨ right = true → i ≠ j)
  | .assign op i j | .assignTake op i j => op ≠ .divTrunc ∧ Live l i ∧ Live l j ∧ i ≠ j
  | .mutate op i => op.Ok ∧ ((∃ x s, l[i]? = some (.val (.num x s))) ∨ (l[i]? = some (.val .nan) ∧ ∀ p s, op ≠ .typmod p s))
  | .drop i => Live l i ∨ l[i]? = some .null
  | .toInt ty i => ty ∈ Convert.types ∧ Live l i
  | .bytes i => ∃ x s, l[i]? = some (.val (.num x s))

/-- The product is zero but its scale is above the limit; a debug assertion fails then (C11). -/
def ZeroScale : Op2 → Val → Val → Prop
  | .mul, .num x s, .num y t => x * y = 0 ∧ 16383 < s + t
  | _, _, _ => False

/-- The panic message of the operators. -/
def Op2.message : Op2 → Val → String
  | .div, .num y _ | .rem, .num y _ => if y = 0 then "attempt to divide by zero" else "value overflows numeric format"
  | _, _ => "value overflows numeric format"

/-- The text is a numeral out of range. -/
def OutOfRange (s : Str) : Prop :=
  HugeExponent s ∨ ∃ neg int frac exp, Literal s neg int frac exp ∧
    ¬ (|exp| < exponentLimit ∧ (frac.length : ℤ) - exp ≤ 16383 ∧ (int.length : ℤ) + exp ≤ 131072)

/-- The text is neither a numeral nor NaN, nor blank. -/
def Malformed (s : Str) : Prop :=
  ¬ White s ∧ ¬ NaNLiteral s ∧ (∀ neg int frac exp, ¬ Literal s neg int frac exp) ∧ ¬ HugeExponent s

/-- What an in-place operation gives back when its result fits. -/
noncomputable def MutOp.answer : MutOp → ℚ → Answer
  | .typmod p k, x => .flag (decide ((10:ℚ) ^ (p.toInt - k.toInt) ≤ |roundHalfAway x k.toInt|))
  | _, _ => .unit

/-- What an in-place operation gives back when its result does not fit. -/
def MutOp.failure : MutOp → Answer
  | .typmod _ _ => .flag true
  | _ => .panic "value overflows numeric format"

/-- What a call that only looks at one number tells about it. -/
inductive Tells [Build] : Act → Val → Answer → Prop
  | isNan {i v} : Tells (.isNan i) v (.flag (match v with | .nan => true | _ => false))
  | isNegative {i x s} : Tells (.isNegative i) (.num x s) (.flag (decide (x < 0)))
  | isNegativeNan {i} : Tells (.isNegative i) .nan (.flag false)
  | isPositive {i x s} : Tells (.isPositive i) (.num x s) (.flag (decide (0 ≤ x)))
  | isPositiveNan {i} : Tells (.isPositive i) .nan (.flag false)
  | scale {i x s} : Tells (.scaleOf i) (.num x s) (.scale (some s))
  | scaleNan {i} : Tells (.scaleOf i) .nan (.scale none)
  /-- the decimal expansion with all digits of the scale -/
  | text {i} {x : ℚ} {s N : ℕ} : |x| * 10 ^ s = N → Tells (.text i) (.num x s) (.text (decimalText (decide (x < 0)) N s))
  | textNan {i} : Tells (.text i) .nan (.text [78, 97, 78])
  /-- the shortest decimal expansion -/
  | normalize {i} {x : ℚ} {s} {m N : ℕ} : |x| * 10 ^ m = N → (∀ k : ℕ, HasScale x k → m ≤ k) →
      Tells (.normalize i) (.num x s) (.text (decimalText (decide (x < 0)) N m))
  | normalizeNan {i} : Tells (.normalize i) .nan (.text [78, 97, 78])
  /-- one digit before the point, no zero at the end, and the exponent -/
  | sci {i c} {x : ℚ} {s} {E : ℤ} {m p : ℕ} : x ≠ 0 → 10 ^ (-1001 : ℤ) ≤ |x| → 10 ^ E ≤ |x| → |x| < 10 ^ (E + 1) → |x| = m * 10 ^ (E - p) →
      1 ≤ m / 10 ^ p → m / 10 ^ p ≤ 9 → m % 10 ≠ 0 → Tells (.sci c i) (.num x s) (.text (sciText (decide (x < 0)) m p E c))
  | sciTiny {i c} {x : ℚ} {s} : x ≠ 0 → |x| < 10 ^ (-1001 : ℤ) → Tells (.sci c i) (.num x s) (.panic "attempt to divide by zero")
  | sciZero {i c s} : Tells (.sci c i) (.num 0 s) (.text ([48] ++ c :: [43, 48, 48]))
  | sciNan {i c} : Tells (.sci c i) .nan (.text [78, 97, 78])
  | int {ty i} {x : ℚ} {s} {n : ℤ} : roundHalfAway x 0 = n →
      Tells (.toInt ty i) (.num x s) (.int (if ty.lo ≤ n ∧ n ≤ ty.hi then .ok n else .error .overflow))
  | intNan {ty i} : Tells (.toInt ty i) .nan (.int (.error .invalid))
  /-- the nearest double, ties to even -/
  | toF64 {i} {x : ℚ} {s} : Tells (.toFloat true i) (.num x s) (.float (.ok (seen (F64.double.round (decide (x < 0)) |x|))))
  | toF32 {i} {x : ℚ} {s} : Tells (.toFloat false i) (.num x s) (.float (singleOf x))
  | toFloatNan {wide i} : Tells (.toFloat wide i) .nan (.float (.ok .nan))
  /-- the documented bytes of the canonical digits -/
  | bytes {i x s v} : Canonical v → value v = x → v.dscale = s →
      Tells (.bytes i) (.num x s) (.bytes (layout (v.sign = .neg) v.weight v.dscale v.digits))

/-- The number a call that only looks at one number looks at. -/
def Act.subject : Act → Option ℕ
  | .isNan i | .isNegative i | .isPositive i | .scaleOf i | .text i | .sci _ i | .normalize i | .toInt _ i | .toFloat _ i | .bytes i => some i
  | _ => none

/-- Number `i` is dropped if it was passed by value. -/
def taken (take : Bool) (i : ℕ) (l : List Slot) : List Slot := if take then l.set i .gone else l

/-- The significant digits of a floating-point type that are kept. -/
def precision (wide : Bool) : ℕ := if wide then 15 else 6

/-- One call: what the program owned, what it gets back, what it owns then. -/
inductive Step [Build] : Act → List Slot → Answer → List Slot → Prop
  | parse {s v l} : LitExact s v → Step (.parse s) l .number (l ++ [.val v])
  | parseEmpty {s l} : White s → Step (.parse s) l (.rejected .empty) l
  | parseInvalid {s l} : Malformed s → Step (.parse s) l (.rejected .invalid) l
  | parseOverflow {s l} : OutOfRange s → Step (.parse s) l (.rejected .overflow) l
  | int {ty n l} : Step (.int ty n) l .number (l ++ [.val (.num n 0)])
  | factorial {n l} : n ≤ 32177 → Step (.factorial n) l .number (l ++ [.val (.num (n.toNat.factorial : ℕ) 0)])
  | factorialNone {n l} : 32177 < n → Step (.factorial n) l .none l
  | zero {l} : Step .zero l .number (l ++ [.val (.num 0 0)])
  | nan {l} : Step .nan l .number (l ++ [.val .nan])
  | bool {b l} : Step (.bool b) l .number (l ++ [.val (.num (if b then 1 else 0) 0)])
  /-- the number the C function `printf` prints with `%.15g` (`%.6g`) -/
  | float {wide neg q v l} : LitExact (printfG (precision wide) neg q) v → Step (.float wide (.fin neg q)) l .number (l ++ [.val v])
  | floatNan {wide l} : Step (.float wide .nan) l .number (l ++ [.val .nan])
  | floatInf {wide neg l} : Step (.float wide (.inf neg)) l (.refused .invalid) l
  | op1 {op i u v l} : l[i]? = some (.val u) → op.Exact u v → Step (.op1 op i) l .number (l ++ [.val v])
  | op1Panic {op i u l} : l[i]? = some (.val u) → (∀ v, ¬ op.Exact u v) →
      Step (.op1 op i) l (.panic "value overflows numeric format") l
  | checked {op i j u v r l} : l[i]? = some (.val u) → l[j]? = some (.val v) → op.Exact u v r →
      Step (.checked op i j) l .number (l ++ [.val r])
  | checkedNone {op i j u v l} : l[i]? = some (.val u) → l[j]? = some (.val v) → (∀ r, ¬ op.Exact u v r) →
      ¬ (Build.debug = true ∧ ZeroScale op u v) → Step (.checked op i j) l .none l
  | checkedAssert {op i j u v l} : l[i]? = some (.val u) → l[j]? = some (.val v) → Build.debug = true → ZeroScale op u v →
      Step (.checked op i j) l .assertion l
  | operator {op i j u v r l} : l[i]? = some (.val u) → l[j]? = some (.val v) → op.Exact u v r →
      Step (.operator op i j) l .number (l ++ [.val r])
  | operatorPanic {op i j u v l} : l[i]? = some (.val u) → l[j]? = some (.val v) → (∀ r, ¬ op.Exact u v r) →
      ¬ (Build.debug = true ∧ ZeroScale op u v) → Step (.operator op i j) l (.panic (op.message v)) l
  | operatorAssert {op i j u v l} : l[i]? = some (.val u) → l[j]? = some (.val v) → Build.debug = true → ZeroScale op u v →
      Step (.operator op i j) l .assertion l
  /-- the operands passed by value are dropped, also when the operator panics -/
  | operatorTake {op left right i j ans l l'} : Step (.operator op i j) l ans l' →
      Step (.operatorTake op left right i j) l ans (taken left i (taken right j l'))
  | assign {op i j u v r l} : l[i]? = some (.val u) → l[j]? = some (.val v) → op.Exact u v r →
      Step (.assign op i j) l .unit (l.set i (.val r))
  /-- when the operator panics the left operand keeps its value -/
  | assignFail {op i j ans l} : Step (.operator op i j) l ans l → ans ≠ .number → Step (.assign op i j) l ans l
  | assignTake {op i j ans l l'} : Step (.assign op i j) l ans l' → Step (.assignTake op i j) l ans (taken true j l')
  | reread {b i v l} : l[i]? = some (.val v) → Step (.reread b i) l .number (l ++ [.val v])
  | clone {i v l} : l[i]? = some (.val v) → Step (.clone i) l .number (l ++ [.val v])
  | mutate {op i x s y t l} : l[i]? = some (.val (.num x s)) → op.exact (x, s) = some (y, t) →
      Step (.mutate op i) l (op.answer x) (l.set i (.val (.num y t)))
  | mutateFail {op i x s l} : l[i]? = some (.val (.num x s)) → op.exact (x, s) = none →
      Step (.mutate op i) l op.failure (l.set i .null)
  | mutateNan {op i l} : l[i]? = some (.val .nan) → (∀ p s, op ≠ .typmod p s) → Step (.mutate op i) l .unit l
  | drop {i l} : Step (.drop i) l .unit (l.set i .gone)
  | cmp {i j u v l} : l[i]? = some (.val u) → l[j]? = some (.val v) → Step (.cmp i j) l (.order (compare u.key v.key)) l
  | eq {i j u v l} : l[i]? = some (.val u) → l[j]? = some (.val v) → Step (.eq i j) l (.flag (decide (u.key = v.key))) l
  | lt {i j u v l} : l[i]? = some (.val u) → l[j]? = some (.val v) → Step (.lt i j) l (.flag (decide (u.key < v.key))) l
  | le {i j u v l} : l[i]? = some (.val u) → l[j]? = some (.val v) → Step (.le i j) l (.flag (decide (u.key ≤ v.key))) l
  | sameHash {i j u v l} : l[i]? = some (.val u) → l[j]? = some (.val v) → Step (.sameHash i j) l (.flag (decide (u.key = v.key))) l
  | look {act i v ans l} : act.subject = some i → l[i]? = some (.val v) → Tells act v ans → Step act l ans l

/-- A program: from the answers so far it decides on the next call, or stops. -/
abbrev Client := List Answer → Option Act

/-- `Play c n (l, h) (l', h')`: owning `l`, with answers `h` so far, the program `c` makes up to `n` further calls, after which it owns
`l'` and has seen the answers `h'`. -/
inductive Play [Build] (c : Client) : ℕ → List Slot × List Answer → List Slot × List Answer → Prop
  | zero {s} : Play c 0 s s
  | stop {n l h} : c h = none → Play c (n + 1) (l, h) (l, h)
  | step {n act l h ans l' out} : c h = some act → Step act l ans l' → Play c n (l', h ++ [ans]) out → Play c (n + 1) (l, h) out

/-- The program makes only legal calls, whatever happens. -/
def Client.Legal [Build] (c : Client) (l : List Slot) (h : List Answer) : Prop :=
  ∀ n l' h' act, Play c n (l, h) (l', h') → c h' = some act → act.Legal l'

end PgNumeric.Spec
