import Verif.Model.Num
/-!
# Parsing (src/parse.rs)

Strings are lists of bytes (`Nat`s); the code works on `as_bytes()` throughout.
-/
namespace PgNumeric

/-- A byte string. -/
abbrev Str := List Nat

/-- src/error.rs:29-34 `ParseErrorKind`. -/
inductive ParseError where
  | empty | invalid | overflow
  deriving DecidableEq, Repr

namespace Parse

/-- `u8::is_ascii_whitespace`: space, `\t`, `\n`, `\x0C`, `\r`. -/
def isWs (c : Nat) : Bool := c == 32 || c == 9 || c == 10 || c == 12 || c == 13
/-- `u8::is_ascii_digit`. -/
def isDig (c : Nat) : Bool := 48 ≤ c && c ≤ 57

/-- src/parse.rs:33-39 `Decimal`; `neg` is `Sign::Negative`. -/
structure Decimal where
  neg : Bool
  integral : Str
  fractional : Str
  exp : Int

/-- src/parse.rs:97-100 `eat_whitespaces`. -/
def eatWhitespaces (s : Str) : Str := s.drop (s.takeWhile isWs).length

/-- src/parse.rs:104-107 `eat_digits`. -/
def eatDigits (s : Str) : Str × Str :=
  let i := (s.takeWhile isDig).length
  (s.take i, s.drop i)

/-- `u8::to_ascii_lowercase`. -/
def lower (c : Nat) : Nat := if 65 ≤ c ∧ c ≤ 90 then c + 32 else c

/-- src/parse.rs:111-123 `extract_nan`. -/
def extractNan (s : Str) : Bool × Str :=
  if s.length < 3 then (false, s)
  else if (s.take 3).map lower = [110, 97, 110] then (true, s.drop 3) else (false, s)

/-- src/parse.rs:127-133 `extract_sign`: whether it is negative, and the rest. -/
def extractSign : Str → Bool × Str
  | 43 :: s => (false, s)
  | 45 :: s => (true, s)
  | s => (false, s)

/-- src/parse.rs:136-173 `extract_exponent`. The i64 accumulation has at most 10 digits, so it cannot overflow. -/
def extractExponent (s : Str) : Except ParseError (Int × Str) :=
  let (neg, s) := extractSign s
  let (number, s) := eatDigits s
  if number = [] then .error .invalid
  else
    let number := number.dropWhile (· == 48)
    if number.length > 10 then .error .overflow
    else
      let result : Int := number.foldl (fun (r : Int) (n : Nat) => r * 10 + ((n : Int) - 48)) 0
      let exp := if neg then -result else result
      if exp ≥ 2147483647 / 2 ∨ exp ≤ -(2147483647 / 2) then .error .overflow
      else .ok (exp, s)

/-- src/parse.rs:43-93 `parse_decimal`. -/
def parseDecimal (s : Str) : Except ParseError (Decimal × Str) :=
  let (neg, s) := extractSign s
  if s = [] then .error .invalid
  else
    let (integral, s) := eatDigits s
    match s with
    | [] => if integral = [] then .error .invalid else .ok (⟨neg, integral, [], 0⟩, [])
    | c :: s' =>
      if c = 101 ∨ c = 69 then
        if integral = [] then .error .invalid
        else match extractExponent s' with
          | .error e => .error e
          | .ok (exp, s) => .ok (⟨neg, integral, [], exp⟩, s)
      else if c = 46 then
        let (fractional, s) := eatDigits s'
        if integral = [] ∧ fractional = [] then .error .invalid
        else match s with
          | [] => .ok (⟨neg, integral, fractional, 0⟩, [])
          | c :: s' =>
            if c = 101 ∨ c = 69 then
              match extractExponent s' with
              | .error e => .error e
              | .ok (exp, s) => .ok (⟨neg, integral, fractional, exp⟩, s)
            else .ok (⟨neg, integral, fractional, 0⟩, c :: s')
      else if integral = [] then .error .invalid
      else .ok (⟨neg, integral, [], 0⟩, c :: s')

/-- The loop of `read_numeric_digit` (src/parse.rs:181-183) on a list of decimal digit values. -/
def readLoop [Build] : List Nat → Int → M Int
  | [], digit => pure digit
  | i :: s, digit => do
    let t ← i16 (digit * 10)
    let t ← i16 (t + i)
    readLoop s t

/-- src/parse.rs:176-186 `read_numeric_digit`. -/
def readNumericDigit [Build] (s : List Nat) : M Int := do
  dassert (s.length ≤ 4)
  readLoop s 0

/-- The chunk loop of `parse_str` (src/parse.rs:235-241): `n` digits remain to be stored. Running out of complete
chunks (`chunks_exact`) would leave digits uninitialised, which is a fault in the model. -/
def readChunks [Build] : Nat → List Nat → M (List Int)
  | 0, _ => pure []
  | n + 1, l =>
    if l.length < 4 then throw .oob
    else do
      let d ← readNumericDigit (l.take 4)
      let ds ← readChunks n (l.drop 4)
      pure (d :: ds)

/-- `usize as i32`. -/
def asI32 (n : Nat) : Int := Int.bmod n 4294967296

/-- The alignment arithmetic of `parse_str` (src/parse.rs:204-223): `weight`, `dec_scale`, `offset`, `ndigits`.
Rust's `/` truncates; all dividends are non-negative here. -/
def align [Build] (intLen fracLen : Nat) (exp : Int) : M (Int × Int × Int × Int) := do
  let t ← i32 (asI32 intLen + exp)
  let decWeight ← i32 (t - 1)
  let r ← i32 (asI32 fracLen - exp)
  let decScale := if r < 0 then 0 else r
  fits [decWeight + 1, decWeight + 1 + 4, -decWeight, -decWeight - 1]
  let weight := if decWeight ≥ 0 then (decWeight + 1 + 4 - 1) / 4 - 1 else -((-decWeight - 1) / 4 + 1)
  let offset := (weight + 1) * 4 - (decWeight + 1)
  let t ← i32 (asI32 intLen + asI32 fracLen)
  let t ← i32 (t + offset)
  fits [weight + 1, (weight + 1) * 4, t + 4]
  let ndigits := (t + 4 - 1) / 4
  pure (weight, decScale, offset, ndigits)

/-- src/parse.rs:193-246 `parse_str`. -/
def parseStr [Build] (s : Str) : M (Except ParseError (Var × Str)) :=
  match parseDecimal s with
  | .error e => pure (.error e)
  | .ok (d, s) => do
    let (weight, decScale, offset, ndigits) ← align d.integral.length d.fractional.length d.exp
    let decDigits := [0, 0, 0, 0] ++ d.integral.map (· - 48) ++ d.fractional.map (· - 48) ++ [0, 0, 0, 0]
    dassert (ndigits ≥ 0)
    let ds ← readChunks ndigits.toNat (decDigits.drop (4 - offset).toNat)
    pure (.ok (⟨weight, decScale, if d.neg then .neg else .pos, ds⟩, s))

/-- src/parse.rs:252-284 `from_str`. -/
def fromStr [Build] (s : Str) : M (Except ParseError Bin) := do
  let s := eatWhitespaces s
  if s = [] then pure (.error .empty)
  else
    let (isNan, s) := extractNan s
    if isNan then
      if s.any (fun c => !isWs c) then pure (.error .invalid)
      else do
        let n ← Num.nan
        pure (.ok n)
    else
      match ← parseStr s with
      | .error e => pure (.error e)
      | .ok (n, s) =>
        if s.any (fun c => !isWs c) then pure (.error .invalid)
        else
          match ← Num.finish n with
          | some r => pure (.ok r)
          | none => pure (.error .overflow)

end Parse
end PgNumeric
