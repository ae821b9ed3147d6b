{"id": "C01", "title": "Parser accepts exactly the numeric grammar", "statement": "`str::parse::<NumericBuf>` succeeds or fails with `overflow` exactly on strings of the form ws* [+-]? (digits+ [. digits*] | . digits+) ([eE] [+-]? digits+)? ws* or ws* NaN(any case) ws*; an all-whitespace (or empty) string gives the `empty` error, and every other string gives `invalid`, except that an exponent field out of range gives `overflow` even if garbage follows it.", "quantifier": "every byte string", "why_tests_cant": "the set of strings is infinite and the scanner is hand written; tests name a few dozen strings", "anchors": ["src/parse.rs: from_str, parse_str, parse_decimal, extract_exponent, extract_sign, extract_nan, eat_digits, eat_whitespaces"]}
{"id": "C02", "title": "Parsing is exact", "statement": "A successful parse of a decimal literal yields exactly the rational number the literal denotes, with no rounding, and scale() = max(0, number of fractional digits - exponent).", "quantifier": "every string accepted by the grammar, any number of digits, any exponent", "why_tests_cant": "alignment of decimal digits to base-10000 groups depends on length and exponent mod 4 and on arbitrary sizes", "anchors": ["src/parse.rs: parse_str, read_numeric_digit", "src/var.rs: strip, make_result"]}
{"id": "C03", "title": "Parse range errors", "statement": "A grammatical literal is rejected (with the overflow error) exactly when its exponent reaches the exponent limit (half the largest i32), or more than 16383 fractional digits are requested, or its first written digit lies beyond the 131072nd place before the point; in particular every literal whose first digit is non-zero, whose magnitude is below 10^131072 and whose scale is at most 16383 is accepted. (A literal with superfluous leading zeros such as 0e200000 is rejected although its value fits.)", "quantifier": "every grammatical string", "why_tests_cant": "limits sit at string lengths of 131072 and beyond", "anchors": ["src/parse.rs: from_str, extract_exponent", "src/var.rs: make_result"]}
{"id": "C04", "title": "Display then parse is the identity", "statement": "For every numeric x the string x.to_string() parses, and the parsed numeric has the same bytes as x (same value, same scale, same NaN-ness).", "quantifier": "every storable numeric (up to 131072 integer and 16383 fractional digits, NaN)", "why_tests_cant": "two independent hand-written base-10000/decimal converters must be inverse for all lengths and alignments", "anchors": ["src/var.rs: write", "src/parse.rs: from_str"]}
{"id": "C05", "title": "Display is the exact decimal expansion", "statement": "to_string() is '-' iff the value is negative, then the integer part without superfluous leading zeros, then (iff scale>0) '.' and exactly scale digits, and the decimal number so written equals the value exactly.", "quantifier": "every storable numeric", "why_tests_cant": "every alignment of digits, weight and scale", "anchors": ["src/var.rs: write"]}
{"id": "C06", "title": "Binary format round trip", "statement": "Encoding any storable value (sign, weight, scale, digits) and decoding the bytes gives back exactly the same sign, weight, scale and digits, for the short, long and NaN header; the length word equals the byte length.", "quantifier": "every sign, weight in i16, scale in 0..16383, every digit list", "why_tests_cant": "bit packing across 2^14 scales x 2^16 weights and a header choice", "anchors": ["src/binary.rs: NumericBinary, NumericChoice, NumericShort::set_header, NumericLong::set_header, as_var, encode_len, decode_len", "src/data.rs: set_header", "src/num.rs: as_bytes, from_bytes_unchecked"]}
{"id": "C07", "title": "Results are canonical", "statement": "Every numeric returned by the API is canonical: no leading or trailing zero base-10000 digit, zero has no digits, weight 0 and positive sign, every digit in 0..9999, scale covers all stored digits. Hence two results with equal value and equal scale have identical bytes.", "quantifier": "every API operation and every canonical input", "why_tests_cant": "invariant over all operations and histories", "anchors": ["src/var.rs: strip, make_result, make_result_no_overflow, into_numeric_buf", "src/num.rs"]}
{"id": "C08", "title": "Addition is exact", "statement": "checked_add(a,b) returns None only if a+b does not fit; otherwise the value of the result is exactly value(a)+value(b) and its scale is max(scale(a),scale(b)).", "quantifier": "every pair of non-NaN numerics", "why_tests_cant": "carry chains of any length and any relative alignment", "anchors": ["src/num.rs: checked_add", "src/var.rs: add_common, add_abs, sub_abs, cmp_abs"]}
{"id": "C09", "title": "Subtraction is exact", "statement": "checked_sub(a,b) returns None only if a-b does not fit; otherwise its value is exactly value(a)-value(b) and its scale max(scale(a),scale(b)).", "quantifier": "every pair of non-NaN numerics", "why_tests_cant": "borrow chains of any length", "anchors": ["src/num.rs: checked_sub", "src/var.rs: sub_common, add_abs, sub_abs, cmp_abs"]}
{"id": "C10", "title": "Multiplication is exact", "statement": "checked_mul(a,b), when it returns Some, has value exactly value(a)*value(b) and scale scale(a)+scale(b); the guard-digit truncation inside never loses a digit of the product.", "quantifier": "every pair of non-NaN numerics", "why_tests_cant": "the truncation and delayed carry logic depends on sizes up to tens of thousands of digits", "anchors": ["src/num.rs: checked_mul", "src/var.rs: mul_common"]}
{"id": "C11", "title": "Overflow is reported exactly", "statement": "checked_add/checked_sub/checked_mul return None exactly when the exact result is at least 10^131072 in magnitude or (mul) the scale sum exceeds 16383; never a wrong value.", "quantifier": "every pair of non-NaN numerics", "why_tests_cant": "boundary at 131072 decimal digits", "anchors": ["src/var.rs: make_result", "src/num.rs: checked_add, checked_sub, checked_mul"]}
{"id": "C12", "title": "Division is correctly rounded", "statement": "checked_div(a,b) with b non-zero returns the exact quotient rounded half away from zero at the selected scale (or None when that overflows).", "quantifier": "every pair of non-NaN numerics with non-zero divisor", "why_tests_cant": "Knuth's algorithm D has rare branches (add-back ~ 2/10000) and rounding depends on all digits", "anchors": ["src/var.rs: div_common, round_common, checked_div", "src/num.rs: checked_div, overflowing_div"]}
{"id": "C13", "title": "Division keeps 16 significant digits", "statement": "The scale selected for a quotient is at least both input scales (capped at 1000) and, unless the cap of 1000 applies, gives a non-zero quotient at least 16 significant decimal digits.", "quantifier": "every pair of non-NaN numerics", "why_tests_cant": "depends on leading digits and weights of both operands", "anchors": ["src/var.rs: select_div_scale"]}
{"id": "C14", "title": "Division by zero", "statement": "checked_div, checked_div_trunc and checked_rem of a non-NaN by zero return None, and the / and % operators panic with 'attempt to divide by zero'; for a non-zero divisor they never report division by zero.", "quantifier": "every dividend and every representation of zero (any scale)", "why_tests_cant": "zero has many encodings (scales)", "anchors": ["src/var.rs: div_common, mod_common", "src/num.rs: checked_div, checked_div_trunc, checked_rem, overflowing_div, overflowing_rem"]}
{"id": "C15", "title": "Truncating division", "statement": "checked_div_trunc(a,b) is the integer part (towards zero) of the exact quotient, with scale 0, or None if that overflows.", "quantifier": "every pair of non-NaN numerics, b non-zero", "why_tests_cant": "as for C12", "anchors": ["src/num.rs: checked_div_trunc", "src/var.rs: checked_div_trunc, div_common, trunc_common"]}
{"id": "C16", "title": "Remainder law", "statement": "For b non-zero checked_rem(a,b) always succeeds with r = a - trunc(a/b)*b exactly; so |r| < |b|, r is zero or has the sign of a, and its scale is max(scale(a),scale(b)).", "quantifier": "every pair of non-NaN numerics, b non-zero", "why_tests_cant": "composition of division, multiplication and subtraction at full length", "anchors": ["src/num.rs: checked_rem, overflowing_rem", "src/var.rs: mod_common"]}
{"id": "C17", "title": "Rounding is half away from zero", "statement": "round(x,s) has value x rounded to s' decimals half away from zero with s' = clamp(s,-1000,1000), and scale max(s',0); it panics only if the rounded value overflows.", "quantifier": "every numeric and every i32 scale, including negative", "why_tests_cant": "carry can ripple through all digits and grow the number", "anchors": ["src/num.rs: round, round_mut", "src/var.rs: round, round_common"]}
{"id": "C18", "title": "Truncation is towards zero", "statement": "trunc(x,s) has value x truncated towards zero at s' = clamp(s,-1000,1000) decimals and scale max(s',0), never failing.", "quantifier": "every numeric and every i32 scale", "why_tests_cant": "all alignments", "anchors": ["src/num.rs: trunc, trunc_mut", "src/var.rs: trunc, trunc_common"]}
{"id": "C19", "title": "Ceil and floor", "statement": "ceil(x) is the least integer >= x and floor(x) the greatest integer <= x, scale 0 (panic only if that integer overflows).", "quantifier": "every non-NaN numeric", "why_tests_cant": "all sizes and signs", "anchors": ["src/num.rs: ceil, floor", "src/var.rs: ceil_common, floor_common"]}
{"id": "C20", "title": "Sign operations", "statement": "negate, abs, signum and inc have values -x, |x|, sgn(x), x+1; negate and abs keep the scale; negating zero gives (positive) zero; negate is an involution on the bytes.", "quantifier": "every non-NaN numeric", "why_tests_cant": "for all values", "anchors": ["src/num.rs: negate, negate_mut, abs, abs_mut, signum, inc", "src/var.rs: negate, abs, signum, inc"]}
{"id": "C21", "title": "Total order agreeing with the values", "statement": "cmp is a total order (reflexive, antisymmetric up to equality, transitive, total): it is the order of the rational values on non-NaN, ignoring scale, with NaN equal to NaN and greater than everything else; ==, <, partial_cmp agree with cmp.", "quantifier": "every pair/triple of numerics", "why_tests_cant": "order laws range over all triples", "anchors": ["src/num.rs: cmp", "src/var.rs: cmp_common, cmp_abs", "src/ops.rs: PartialEq, PartialOrd, Ord impls"]}
{"id": "C22", "title": "Hash is consistent with equality", "statement": "Two numerics that compare equal feed the same data to the Hasher; conversely different values feed different data.", "quantifier": "every pair of numerics", "why_tests_cant": "all pairs incl. different scales", "anchors": ["src/num.rs: hash"]}
{"id": "C23", "title": "normalize identifies values", "statement": "normalize(a) == normalize(b) as strings iff a == b; normalize never leaves trailing fractional zeros or a trailing point.", "quantifier": "every pair of numerics", "why_tests_cant": "string level canonical form for all lengths", "anchors": ["src/var.rs: normalize", "src/num.rs: normalize"]}
{"id": "C24", "title": "NaN propagation", "statement": "add, sub, mul, div, div_trunc, rem with a NaN operand return NaN (even for NaN / 0), and round, trunc, ceil, floor, abs, negate, signum, inc of NaN are NaN.", "quantifier": "every numeric as the other operand", "why_tests_cant": "every other operand", "anchors": ["src/num.rs"]}
{"id": "C25", "title": "Typmod encoding", "statement": "Typmod::new(p,s) is Some iff 1<=p<=1000 and 0<=s<=p; extract() gives back (p,s); value() is injective and from_value_unchecked(value()) is the identity; the default typmod is distinct from every valid one.", "quantifier": "all i32 pairs", "why_tests_cant": "all pairs", "anchors": ["src/typmod.rs"]}
{"id": "C26", "title": "apply_typmod rounds and bounds-checks", "statement": "For a valid typmod (p,s) and a non-NaN x, apply_typmod returns false exactly when |round(x,s)| < 10^(p-s), and then x has become round(x,s) with scale s; for the default typmod x is unchanged and the result is false.", "quantifier": "every non-NaN numeric, every valid typmod", "why_tests_cant": "rounding can change the number of digits", "anchors": ["src/var.rs: apply_typmod", "src/num.rs: apply_typmod"]}
{"id": "C27", "title": "apply_typmod leaves a usable value", "statement": "After apply_typmod returns (true or false) the receiver is still a valid numeric holding the rounded value, as documented ('no matter whether overflows, self will be rounded').", "quantifier": "every non-NaN numeric, every valid typmod", "why_tests_cant": "only fails at 131072 integer digits", "anchors": ["src/num.rs: apply_typmod, as_var_owned"]}
{"id": "C28", "title": "apply_typmod keeps NaN", "statement": "apply_typmod on NaN leaves NaN and reports no overflow, as in PostgreSQL.", "quantifier": "every typmod", "why_tests_cant": "NaN is a special bit pattern that flows into code written for numbers", "anchors": ["src/num.rs: apply_typmod", "src/var.rs: apply_typmod, make_result, strip"]}
{"id": "C29", "title": "Integers convert exactly", "statement": "From<iN>/From<uN>/From<bool> give a numeric with exactly that integer value and scale 0, and TryFrom back gives Ok of the same integer.", "quantifier": "every value of i8..i128, u8..u128, usize, isize", "why_tests_cant": "2^128 values, MIN value special case", "anchors": ["src/convert.rs: from_signed, from_unsigned, unsigned_to_var, into_signed, into_unsigned"]}
{"id": "C30", "title": "Numeric to integer conversion", "statement": "TryFrom<&Numeric> for an integer type returns Ok(n) exactly when the value rounded half away from zero is n and n is in the type's range; out of range gives overflow, NaN gives invalid.", "quantifier": "every numeric, all ten integer types", "why_tests_cant": "boundaries at MIN/MAX and arbitrary fractional tails", "anchors": ["src/convert.rs: into_signed, into_unsigned, TryFrom impls"]}
{"id": "C31", "title": "Factorial is exact", "statement": "factorial(n) is exactly n! with scale 0 for 0<=n<=32177 (1 for n<=1), and None exactly for n>32177, which is exactly when n! does not fit.", "quantifier": "every i64", "why_tests_cant": "the largest results have 131k digits", "anchors": ["src/var.rs: factorial", "src/num.rs: factorial"]}
{"id": "C32", "title": "Integer powers of integers are exact", "statement": "pow(b,n) for an integer-valued base b (stored at any scale s) and an integer 0<=n<2^31 has exactly the value b^n, at scale max(s,16) capped at 1000, and is None exactly when b^n has more than 131072 digits; for -2^31 < n <= -2 (in a release build, or in any build if s <= 56) it is within 0.500000001 units in the last place of 1/b^|n|. For a base that is not an integer the guard digits can be far too few (1.9^200 is off by more than 10^24: a defect).", "quantifier": "every integer base and i32 exponent, every libm accurate to 10^-10", "why_tests_cant": "repeated squaring with scale bookkeeping", "anchors": ["src/var.rs: power_int, power_common, pow"]}
{"id": "C33", "title": "pow special cases", "statement": "NaN^0=1, 1^NaN=1, other NaN cases NaN; x^0=1, x^1=round(x), x^-1 is 1/x correctly rounded, 0^y=0 for y>0; 0 to a negative power and a negative base with a non-integer exponent panic with the documented message. Two defects: a negative base with an integer exponent outside i32 trips an assertion (or an overflow check) in debug builds, and the exponent -2147483648 overflows (debug) or gives 1 (release).", "quantifier": "every numeric base/exponent", "why_tests_cant": "every operand", "anchors": ["src/var.rs: pow, power_common, power_int", "src/num.rs: pow"]}
{"id": "C34", "title": "Square root accuracy", "statement": "sqrt(x) of a non-negative x, when it returns, has the documented scale (16 digits, at least the input's scale, at most 1000) and is within (1/2+1.6*10^-8)*10^-scale of the exact root (exact if the root is representable); sqrt of a negative panics; NaN gives NaN. In a release build the only other outcomes are a panic for x<10^-2016 and non-termination; both really occur. In a debug build an arithmetic overflow panic is possible too, and there is an 84-digit number whose root panics that way; but not for x < 10^k with s decimals when 2s+k <= 128: those roots never panic in any build.", "quantifier": "every non-negative numeric", "why_tests_cant": "Newton iteration on arbitrary precision numbers with floating point quotient estimates", "anchors": ["src/var.rs: sqrt, sqrt_common, div_fast_common"]}
{"id": "C35", "title": "Scientific formatting is exact", "statement": "{:e} and {:E} of a non-zero x with decimal exponent E >= -1001 print exactly d.ddd...e+EE: one non-zero digit before the point, no trailing zeros, decimal value exactly x; the text parses back to x. Zero prints 0e+00 whatever its scale, NaN prints NaN. Below 10^-1001 formatting panics with a division by zero (a defect of the code: the stated bound is exact).", "quantifier": "every numeric, both build profiles, every libm whose log10 is accurate to 10^-10 and exact at 1, 10, 100, 1000", "why_tests_cant": "exponents from -16383 to 131071", "anchors": ["src/var.rs: write_sci, select_sci_scale", "src/num.rs: LowerExp, UpperExp"]}
{"id": "C36", "title": "Kernel loops stay in bounds", "statement": "In add, sub, mul, div, round and strip no index leaves its buffer (many accesses are get_unchecked), no i16/i32 accumulator, weight, scale or length computation overflows and no debug assertion fails.", "quantifier": "every pair of non-NaN canonical operands of any length", "why_tests_cant": "overflow needs thousands of digits with adversarial carries; unchecked accesses are undefined behaviour", "anchors": ["src/var.rs: add_abs, sub_abs, mul_common, div_common, round_common, strip"]}
{"id": "C37", "title": "In-place buffer discipline", "statement": "In-place operations (negate_mut, abs_mut, round_mut, trunc_mut) keep room for the header and the rounding digit, never touch memory outside the allocation, and give the same bytes as the non-mutating versions.", "quantifier": "every buffer state (offset, spare space) reachable by any sequence of in-place operations", "why_tests_cant": "offset bookkeeping over arbitrary operation histories", "anchors": ["src/data.rs: NumericData", "src/num.rs: as_var_owned, into_var, round_mut, trunc_mut, negate_mut, abs_mut"]}
{"id": "C38", "title": "Ring laws at byte level", "statement": "Whenever both sides are defined: a+b = b+a, a*b = b*a, (a+b)+c = a+(b+c), a*(b*c) = (a*b)*c, a*(b+c) = a*b+a*c (value), a-b = a+(-b), byte for byte where scales agree.", "quantifier": "every triple of numerics", "why_tests_cant": "laws over all triples", "anchors": ["src/num.rs: checked_add, checked_sub, checked_mul, negate"]}
{"id": "C39", "title": "Floats convert through their printed decimal", "statement": "TryFrom<f64>/<f32> gives NaN for NaN, an error for infinities and otherwise succeeds with exactly the decimal printed by %.15g / %.6g.", "quantifier": "every float (through the shape of %g output)", "why_tests_cant": "2^64 floats", "anchors": ["src/convert.rs: from_floating"]}
{"id": "C40", "title": "Operators agree with checked methods", "statement": "+,-,*,/,% on any combination of owned and borrowed operands return the value the checked method returns in Some, and panic exactly when it returns None.", "quantifier": "every operand pair, all impls", "why_tests_cant": "many macro-free hand written impls", "anchors": ["src/ops.rs"]}
{"id": "C41", "title": "Serde round trip", "statement": "Serialising and deserialising (text or binary) returns a numeric with identical bytes.", "quantifier": "every storable numeric", "why_tests_cant": "as for C04 and C06", "anchors": ["src/num.rs: Serialize, Deserialize"]}
{"id": "C42", "title": "Clone and to_owned are exact", "statement": "clone() and to_owned() produce a numeric with the same bytes.", "quantifier": "every storable numeric", "why_tests_cant": "all representations", "anchors": ["src/num.rs: Clone, ToOwned"]}
{"id": "C43", "title": "Logarithm domain", "statement": "ln, log, log2, log10 of zero or a negative number panic with the documented message (log checks its argument before its base), of NaN give NaN; ln(1)=0 at the operand's scale (at least 16, at most 1000); a logarithm to base 1 never returns a result.", "quantifier": "every numeric", "why_tests_cant": "all operands", "anchors": ["src/var.rs: ln, log, ln_common", "src/num.rs: ln, log, log2, log10"]}
{"id": "C44", "title": "Monotonicity", "statement": "If a <= b then a+c <= b+c, round(a,s) <= round(b,s), trunc(a,s) <= trunc(b,s), -b <= -a, in the library's own order.", "quantifier": "every triple and scale", "why_tests_cant": "laws over all triples", "anchors": ["src/num.rs", "src/var.rs: round_common, trunc_common, cmp_common"]}
{"id": "C45", "title": "Rounding and truncation are idempotent projections", "statement": "round(round(x,s),s) and trunc(trunc(x,s),s) return the same bytes as one application; rounding at a scale at or above the number's own scale keeps the value.", "quantifier": "every numeric and scale", "why_tests_cant": "all sizes", "anchors": ["src/num.rs: round, trunc"]}
{"id": "C46", "title": "Inner multiplication error bound", "statement": "With a requested scale r below the exact scale (used by pow, sqrt, ln, exp) the internal product is within (1/2 + n/10^4)*10^-r of the exact product, n the shorter operand's number of base-10000 digits.", "quantifier": "every operand pair and scale r", "why_tests_cant": "guard digits versus arbitrarily long operands", "anchors": ["src/var.rs: mul_common"]}
{"id": "C47", "title": "Fast division error bound", "statement": "The internal floating-point-assisted division (used by sqrt, ln, log, exp and negative powers) is within (1/2+10^-10) units of the requested scale of the exact quotient, is correctly rounded unless the quotient lies that close to a tie, returns None exactly for a zero divisor, and never faults in a release build; in a debug build its only fault is an i32 overflow panic, which does occur, but only for divisors of more than 21 groups of four digits and quotients of more than 20.", "quantifier": "every operand pair", "why_tests_cant": "floating-point quotient-digit estimates with delayed corrections", "anchors": ["src/var.rs: div_fast_common"]}
{"id": "C48", "title": "Any history of operations agrees with exact rational arithmetic", "statement": "Any straight-line program of parse/from-integer/add/sub/mul/negate/abs/round/trunc/compare steps that raises no error computes, at every step, exactly the rational value that exact arithmetic gives, and every intermediate numeric is canonical.", "quantifier": "every finite sequence of operations", "why_tests_cant": "histories", "anchors": ["src/num.rs", "src/var.rs"]}
{"id": "C49", "title": "The natural logarithm is correctly rounded up to a small working error", "statement": "Whenever ln(x) of a positive x returns, the result is within half a unit in its last place of the exact natural logarithm, plus a working error of (t+10)*max(1,22|ln x|)*10^-8 units, where t is the result scale; t is at most 1000 and at least the operand's scale (up to 1000); and unless t is 1000 the result has at least 15 correct significant digits; and ln(x) of every x strictly between 0.9 and 1.1 returns, in a release build always and in a debug build if x has at most 80 decimals; outside that interval it need not: on one 61-digit integer the square-root iteration alternates between two values for ever, and in a debug build one 84-digit number makes it panic with an arithmetic overflow. For x below 10^136 with at most 38 decimals no build ever panics or overflows.", "quantifier": "every positive numeric, any build, every libm accurate to 10^-10", "why_tests_cant": "The error of a truncated series over repeated square roots must be bounded for every argument, including those with thousands of digits or extremely close to one; tests compare a few values with a reference table.", "anchors": ["src/num.rs Numeric::ln", "src/var.rs ln_common", "src/var.rs estimate_ln_dweight", "src/var.rs sqrt_common"]}
{"id": "C50", "title": "Logarithms to other bases are accurate and exact on powers of the base", "statement": "Whenever log(x, b), log2(x) or log10(x) returns, it is within 0.51 units in the last place of the exact logarithm, has at least 14 correct significant digits unless its scale is 1000, and is exactly k when x = b^k; for x extremely close to (but not equal to) one the computation of the base's logarithm degenerates and the call panics; and log2 and log10 of one 61-digit integer never return in a release build. log(x, b) with both x and b strictly between 0.9 and 1.1 always returns (in a debug build: with at most 21 decimals); with x and b below 10^136 and at most 13 decimals no build ever panics or overflows.", "quantifier": "every positive x that is one or at least 10^-900 away from it, every positive base at least 10^-190 away from one, any build, every libm accurate to 10^-10", "why_tests_cant": "Two rounded logarithms are divided; whether the guard digits chosen from floating-point estimates always suffice is a statement about all pairs of operands.", "anchors": ["src/num.rs Numeric::log", "src/num.rs Numeric::log2", "src/num.rs Numeric::log10", "src/var.rs log_common", "src/var.rs estimate_ln_dweight"]}
{"id": "C51", "title": "The exponential is accurate, total below 6000 and reports overflow beyond", "statement": "exp(x) for |x| < 6000 terminates, without panic or overflow in any build, and returns a number within 0.51 units in its last place of e^x; its scale t lies between min(scale of x, 1000) and 1000, and unless t is 1000 the result has at least 15 correct significant digits; exp(0) is exactly 1; exp(NaN) is NaN; for |x| beyond 6000 the call returns None, even for negative x whose exponential is tiny.", "quantifier": "every numeric, of every scale (within 10^-9 of magnitude 6000 either the accurate number or None), every strtod that rounds to the nearest double; release and debug builds alike", "why_tests_cant": "A Taylor series after range reduction by a power of two, then repeated squaring with a decreasing working scale: that the guard digits suffice for every argument and every scale is not something sample values show.", "anchors": ["src/num.rs Numeric::exp", "src/var.rs exp", "src/var.rs exp_common", "src/convert.rs TryFrom<&NumericVar> for f64"]}
{"id": "C52", "title": "Powers with a fractional exponent are accurate; the result can only be trusted above 10^-1000", "statement": "Whenever pow(x, y) of a positive x with an exponent y that is not a 32-bit integer returns and -2290 <= y ln x <= 5999, the result is a number within 0.52 + |ln x|/10^5 units in its last place of x^y; its scale q lies between min(larger operand scale, 1000) and 1000; unless q is 1000 at least 14 significant digits are correct; and when x^y is itself a decimal with no more places than the operands have, the result is exactly that. For y ln x >= 6001 the call returns None. For y ln x <= -2340 the result is wrong: the code returns 1 for bases in [1.1, 1.5] and None for bases in [0.4, 0.6] with exponents from 6002, instead of a number that rounds to 0. In a release build the call returns for every base strictly between 0.9 and 1.1 (in every build if the base has at most 80 decimals); with one 61-digit integer base it never returns. In every build, debug included, the call neither panics nor overflows if x < 10^136, both operands have at most 10 decimals and -2290 <= y ln x <= 57.", "quantifier": "every positive x that is one or at least 10^-980 away from it, every numeric y that is not a 32-bit integer, any build, every libm accurate to 10^-10 and every strtod that rounds to the nearest double", "why_tests_cant": "The working precision is chosen from a first low-precision logarithm and from floating-point estimates; whether the guard digits suffice, and in which direction a mis-estimate fails, is a statement about all pairs of operands.", "anchors": ["src/num.rs Numeric::pow", "src/var.rs power_common", "src/var.rs ln_common", "src/var.rs exp_common", "src/var.rs estimate_ln_dweight"]}
{"id": "C53", "title": "Square roots terminate except on a thin set; perfect squares are always exact", "statement": "sqrt(x) for x >= 10^-2000 returns, within 60 Newton rounds, a number within 0.500000016 units in its last place of the exact root, unless the fractional part of sqrt(x)*10^(s+8), with s the result scale, lies within 10^-8 of 1/4. In particular, if x has a rational root y and at most 2000 decimals, sqrt(x) is exactly |y|, and sqrt(x*x) = |x| for every x with at most 1000 decimals. In a debug build the call may instead stop on an arithmetic overflow inside the division, but not if x < 10^k has s decimals and 2s+k <= 128: then these statements hold in every build.", "quantifier": "every numeric x >= 10^-2000 (every perfect square, every x squared), both builds, any number of loop rounds from 60 on", "why_tests_cant": "The loop runs until two successive iterates agree; whether the iterates can oscillate for ever depends on rounding of the quotient for each of infinitely many arguments.", "anchors": ["src/num.rs Numeric::sqrt", "src/var.rs sqrt_common", "src/var.rs div_fast_common"]}
{"id": "C54", "title": "Roots, logarithms and fractional powers of legal arguments never panic", "statement": "sqrt(x) for x >= 10^-2016, ln(x) for every x > 0, log(x, b) for positive x and b with x = 1 or |x-1| >= 10^-900 and |b-1| >= 10^-190, and pow(x, y) for positive x (one, or at least 10^-980 away from it) with any y that is not a 32-bit integer, either return or go on computing: no expect fails, no division by zero, no index is out of bounds, no assertion fails and the result always fits. The only other outcome is the arithmetic overflow check of a debug build.", "quantifier": "all numerics in the domains given, any build, any number of loop rounds (at least 4200 for pow), every libm accurate to 10^-10", "why_tests_cant": "These functions contain expect calls and internal divisions guarded only by estimates of magnitude; that no argument defeats the estimates is a universal statement, and outside the stated domain some do (C47, C50).", "anchors": ["src/var.rs sqrt_common", "src/var.rs ln_common", "src/var.rs log_common", "src/var.rs power_common", "src/var.rs exp_common", "src/num.rs Numeric::ln"]}
{"id": "C55", "title": "Integer powers of decimal numbers: error bounds and where they hold", "statement": "pow(x,k) for any non-zero x and an integer 3<=k<2^31 has the scale of x (at least 16, at most 1000) and an error of at most half a unit in the last place plus (|x|/L)^k/40000 units, where L is the leading group of four digits of x; hence 0.501 units if k does not exceed the leading group, or if x consists of one group, and scale+4 significant digits for every |x|>=1; it is None when x^k exceeds the largest number by more than a thousandth and Some when it stays below by a thousandth. pow(x,-k) is within 0.5001 units of 1/x^k for every base (a debug build may stop on an arithmetic overflow, but only if the power has over 52 digits at its scale). x^2 is correctly rounded up to 12 decimals. The dependence on L is a defect that really shows: 0.99995^500000 gives 0 although it exceeds 10^-12.", "quantifier": "every non-zero numeric base, every integer exponent with 2 <= |k| < 2^31, any build, every libm accurate to 10^-10", "why_tests_cant": "Repeated squaring with a working precision chosen from a floating-point size estimate; the estimate is good for some bases and bad for others, and samples do not show which.", "anchors": ["src/var.rs power_int", "src/var.rs power_common", "src/var.rs mul_common", "src/var.rs div_fast_common", "src/num.rs Numeric::pow"]}
{"id": "C56", "title": "Conversion to f64 gives the nearest double", "statement": "Converting a number to f64 always succeeds: NaN gives NaN; a number below 2^1024-2^970 in magnitude gives a double than which no double is nearer; a number from there on gives the infinity of its sign. A number that is a double (in particular every integer up to 2^53 in magnitude) is converted exactly, and the conversion is monotone.", "quantifier": "every numeric of any scale and size, every strtod that reads decimal texts as the nearest double", "why_tests_cant": "The value passes through its decimal text of up to 147456 characters; that nothing is lost or misread on the way for any number is a statement about all of them.", "anchors": ["src/convert.rs TryFrom<&NumericVar> for f64", "src/convert.rs impl_try_from_numeric_to_floating", "src/var.rs write"]}
{"id": "C57", "title": "Conversion to f32: exact failure region, faithful result", "statement": "Converting a number x to f32 fails with overflow exactly when 2^128-2^103-2^74 <= |x| < 2^1024-2^970 or 2^-1075 < |x| <= 2^-150+2^-203; larger numbers give an infinity and smaller ones zero (so 10^39 is an error but 10^400 is Ok(inf)). In between the result is the single nearest to the double nearest to x: no single lies strictly between x and it, and in the normal range the relative error is at most 2^-24(1+2^-27). A number that is a single is converted exactly. The result need not be the nearest single: 1+2^-24+2^-60 becomes 1 (double rounding).", "quantifier": "every numeric of any scale and size, every strtod that reads decimal texts as the nearest double", "why_tests_cant": "The region boundaries are set by two roundings in a row and lie between any test values; exactness and faithfulness are statements about all numbers.", "anchors": ["src/convert.rs TryFrom<&NumericVar> for f32", "src/convert.rs impl_try_from_numeric_to_floating"]}
{"id": "C58", "title": "Short decimals survive the way through floats", "statement": "A number with at most 15 significant digits that is zero or between 10^-307 and 10^308 in magnitude, converted to f64 and back, has its old value; so has one with at most 6 significant digits between 10^-37 and 10^38 converted to f32 and back. The other way round there is no such guarantee: the double 1+2^-52 comes back as 1.", "quantifier": "every numeric with that many digits in that range, every strtod that reads decimal texts as the nearest double, snprintf %.15g / %.6g as specified", "why_tests_cant": "Whether a binary neighbour prints back as the original digits depends on every digit; the guarantee is for all of them.", "anchors": ["src/convert.rs TryFrom<&NumericVar> for f64", "src/convert.rs TryFrom<&NumericVar> for f32", "src/convert.rs from_floating"]}
{"id": "C59", "title": "Numbers in any stored form", "statement": "A number can be stored in more than one way: long header where the short one would do, zero digit groups at either end. The accessors (sign, scale, NaN test), copying, comparison, hashing, addition, subtraction, multiplication, negation, absolute value, rounding, truncation, ceiling, floor, sign, increment applying type modifiers and the conversions to integers depend only on the value and scale stored, not on the form; two numbers that are equal hash alike whatever their forms. Division, truncating division and remainder also do, except that a divisor whose first digit group is zero counts as zero (None from the checked operations, a division-by-zero panic from the operators). Display and normalize print the exact expansion, but with zeros in front if the first group is zero; the text parses back to the number. Forms that differ only in the header give identical results in every operation. Deserialising the bytes of a stored form gives the same number. Deserialising is safe to call but does not check its input: with a length word longer than the bytes it reads behind them in a release build.", "quantifier": "every stored form of every number (any header, any zero groups at the ends, up to 90 million digits), every pair of them", "why_tests_cant": "Tests use numbers the library made itself, in one canonical form; a database page may hold any of the others, and the number of forms of a value is unbounded.", "anchors": ["src/binary.rs NumericBinary", "src/num.rs Numeric::from_bytes_unchecked", "src/num.rs Numeric::cmp", "src/num.rs Hash for Numeric", "src/num.rs Deserialize", "src/var.rs div_common", "src/var.rs mul_common", "src/var.rs write", "src/convert.rs TryFrom<&NumericBuf>", "src/var.rs apply_typmod"]}
{"id": "C60", "title": "Allocations: no leak, no double free, no use after free, no sharing", "statement": "Whatever a program does with the numbers it owns (obtain them from the library, clone, change in place, drop, in any order, including in-place operations that panic or overflow), no allocation is used or released after its release, no two numbers share one, changing one number does not change another, and the live allocations are exactly those of the numbers not yet dropped; when all are dropped every allocation has been released exactly once, with its size. Exceptions (defects): releasing a number states alignment 1 although the allocation was made with alignment 2; a number whose in-place rounding overflowed is left with a null pointer, which is harmless to drop but a null dereference to read.", "quantifier": "every sequence of operations on any number of numbers, every layout of a number in its allocation", "why_tests_cant": "Ownership is a property of all histories; leaks and wrong layouts are invisible to value tests, and the panicking paths are the ones tests do not take.", "anchors": ["src/data.rs NumericData", "src/num.rs NumericBuf", "src/num.rs Drop for NumericBuf", "src/num.rs NumericBuf::as_var_owned", "src/var.rs NumericVar::into_numeric_buf", "src/var.rs NumericVar::make_result"]}
{"id": "C61", "title": "Programs see exactly what the exact rationals give", "statement": "A program that calls the library, looks at every answer (numbers created, None, caught panics, parse errors, comparisons, hashes, texts, integers, floating-point numbers, bytes) and decides from the answers what to call next, sees exactly the answers of a machine that keeps an exact rational and a scale, or NaN, per number, for any number of calls. That machine is deterministic: the answers depend neither on the platform's floating-point functions nor on where in memory results are put, nor (unless a debug assertion fails) on the build profile. No legal call faults, and afterwards every number is intact in an allocation of its own.", "quantifier": "every adaptive program over 33 kinds of calls (operators by reference and by value, compound assignment, in-place operations, drops), every length of run, every legal layout, every platform libm, both build profiles", "why_tests_cant": "Tests run fixed programs; the claim is about every interaction, in which an early answer decides the later calls.", "anchors": ["src/num.rs Numeric", "src/num.rs NumericBuf", "src/ops.rs operators", "src/parse.rs FromStr", "src/convert.rs TryFrom", "src/num.rs Drop for NumericBuf"]}
{"id": "C62", "title": "Header references and {:?} step outside what the allocation guarantees", "statement": "Of a cloned number: the reference to its 8-byte header that every use of the number creates is misaligned, in an allocation at a multiple of 4, exactly when the number needs the long header (scale above 63, or magnitude outside 10000^-64 .. 10000^64); it extends past the end of the allocation exactly when the number is zero with a scale up to 63, or NaN; the alignment requested from the allocator (2) never guarantees the alignment of the reference (4); and formatting the clone with {:?} reads memory that was never written. (Defects: undefined behaviour in Rust's rules, although the bytes actually read by the other operations are all inside and initialised, C37.)", "quantifier": "every number and NaN, every allocation address, any build", "why_tests_cant": "Misaligned or oversized references and reads of uninitialised memory have no visible effect on common platforms, so tests pass.", "anchors": ["src/num.rs NumericBuf::as_bytes", "src/num.rs Debug for NumericBuf", "src/binary.rs NumericBinary", "src/data.rs NumericData::set_header", "src/num.rs Clone for NumericBuf"]}
{"id": "C63", "title": "Equal numbers are interchangeable, except under division", "statement": "Numbers that compare equal (1.0 and 1.00) can be exchanged: rounding, truncation, ceil, floor, signum, the predicates, hash, normalize, conversion to every integer type, scientific notation, comparison with a third number and truncating division give exactly the same result for both; negation, abs, inc, +, - and % give results that compare equal (or fail together); so does * whenever both products exist. Division does not have this property: 1 / 3 and 1.000000000000000000000000000000 / 3 do not compare equal.", "quantifier": "every pair of numbers (NaN included) that compare equal, every third operand, every target scale and integer type", "why_tests_cant": "The claim ranges over all pairs of representations of all values; a test compares a few scales of a few values.", "anchors": ["src/ops.rs PartialEq for Numeric", "src/num.rs Numeric::round", "src/num.rs Numeric::checked_add", "src/num.rs Numeric::checked_div", "src/var.rs NumericVar::select_div_scale"]}
{"id": "C64", "title": "Laws of division and remainder", "statement": "Negating an operand of / or of the truncating division negates the quotient exactly (or both overflow); % follows the sign of the dividend and ignores that of the divisor. a / a == 1; 0 / a == 0; a / 1 == a and (a * b) / b == a when a has at most 1000 decimals. (a / b) * b misses a by at most |b| half units of the quotient's last place. Quotients of the same scale by a positive divisor keep the order of the dividends. A dividend smaller than the divisor is its own remainder; taking the remainder twice changes nothing; the remainder of an integer multiple is zero; a % 1 is a minus its truncation. Truncating a quotient gives the integer of the truncating division, or the next one away from zero, the latter only when the quotient was itself rounded to that integer; this happens: (10^30-1)/10^30.", "quantifier": "every pair of numbers (NaN included for the sign laws), every scale", "why_tests_cant": "Algebraic laws over an unbounded set of operands, in which the chosen scale depends on both leading digits.", "anchors": ["src/num.rs Numeric::checked_div", "src/num.rs Numeric::checked_rem", "src/num.rs Numeric::checked_div_trunc", "src/var.rs NumericVar::div_common", "src/var.rs NumericVar::mod_common"]}
{"id": "C65", "title": "Roots, logarithms, exponentials and powers never end up on the wrong side of a number", "statement": "Whenever sqrt, ln, log, exp or pow with a fractional exponent returns a number of q decimals, no number of q decimals lies strictly between it and the exact real value (sqrt: every argument; ln: |ln x| <= 2200; log: argument and base not within 10^-900 / 10^-190 of 1; exp: |x| < 6000; pow: exact power above about 10^-994). So ln is never negative for x >= 1 nor positive for x <= 1 (for every x), e^x is never negative, is at least 1 for x >= 0 and at most 1 for x <= 0, likewise powers; results of equal scale keep the order of the arguments up to one unit; sqrt(x)^2, ln(exp(x)) and exp(ln(x)) come back to x within explicit relative errors.", "quantifier": "every argument in the stated ranges, every scale, every build, every accurate libm", "why_tests_cant": "The exact values are irrational; faithfulness and the inverse laws must hold for uncountably fine choices of arguments, next to every decimal number.", "anchors": ["src/num.rs Numeric::sqrt", "src/num.rs Numeric::ln", "src/num.rs Numeric::log", "src/num.rs Numeric::exp", "src/num.rs Numeric::pow", "src/var.rs NumericVar::sqrt_common", "src/var.rs NumericVar::ln_common", "src/var.rs NumericVar::exp_common"]}
{"id": "C66", "title": "Threads that share numbers", "statement": "Numbers may be shared between threads (NumericBuf is Send and Sync). If any number of threads use a set of numbers through shared references only, and besides make, change and drop numbers of their own, then under every schedule of their calls every thread gets exactly the answers it would get if it were alone, nothing faults, the shared numbers stay bit for bit as they are, and no allocation is lost or owned twice. A call writes nothing but new allocations and the numbers it borrows mutably or takes by value, and what it answers depends only on the bits of the numbers it is given.", "quantifier": "every number of threads, every program of each thread (choosing its calls from its own answers), every schedule, every set of shared numbers a program can have made", "why_tests_cant": "The number of interleavings is unbounded and tests see only the few the scheduler happens to produce; that a call does not write through a shared reference is a statement about all of memory.", "anchors": ["src/num.rs unsafe impl Send/Sync for NumericBuf", "src/data.rs unsafe impl Send/Sync for NumericData", "src/num.rs NumericBuf", "src/ops.rs"]}
{"id": "C67", "title": "Printed errors and type modifiers tell the truth", "statement": "A type modifier prints as \"(precision, scale)\" in decimal, and different type modifiers print differently; the default one prints as \"(65535, 65531)\". The text of a parse error tells which of the cases holds, for every string: the string is blank, it is no numeral, or it is a numeral out of range; no text is printed exactly for NaN and the numerals in range. The text of a failed conversion to an integer type is \"value is out of range\" exactly when the rounded number is not in the type; the conversions from floats fail only for infinities.", "quantifier": "every type modifier, every byte string below 512 MiB, every number and integer type, every float", "why_tests_cant": "Which message is printed is a classification of all strings and all numbers.", "anchors": ["src/error.rs impl Display for NumericParseError", "src/error.rs impl Display for NumericTryFromError", "src/error.rs impl From<NumericParseError> for NumericTryFromError", "src/typmod.rs impl Display for Typmod"]}
{"id": "C68", "title": "Programs that also take roots, logarithms, exponentials and powers", "statement": "A program mixes every call of C61 with sqrt, ln, log, log2, log10, exp and pow on any numbers it owns (results of earlier roots and powers included) and decides on each call from the answers so far, catching panics. Either all calls return, and then every answer is one that the specification allows: a number whose distance from the exact real number is bounded in units of its last decimal, None only for results out of range, the documented panic for arguments outside the domain, and in a debug build an overflow panic, only for long numbers or results (the bounds of C34, C49, C50, C52, C55); every number the program owns holds exactly the value of the specification, in an allocation of its own, and nothing else is allocated. Or one of the calls that are not known to return runs on: square roots at the points where Newton's iteration may oscillate, logarithms and real powers of numbers outside (0.9, 1.1), log2 and log10 of positive numbers, and log unless both arguments are in (0.9, 1.1). A program that makes no such call always gets its answers. Excluded arguments: log with an argument within 10^-900 of one (but not one) or a base within 10^-190 of one, real powers of a base within 10^-980 of one (but not one), the exponent -2147483648, and powers of negative numbers to integers outside i32.", "quantifier": "every program (every strategy for choosing calls from answers) of any length, every layout of the allocations, every libm that is accurate to 10^-10, debug and release builds, both byte orders", "why_tests_cant": "The inputs of a call are the rounded outputs of earlier ones, over unbounded histories; a test sees one history and one libm.", "anchors": ["src/num.rs Numeric::sqrt", "src/num.rs Numeric::ln", "src/num.rs Numeric::log", "src/num.rs Numeric::log2", "src/num.rs Numeric::log10", "src/num.rs Numeric::exp", "src/num.rs Numeric::pow", "src/num.rs NumericBuf"]}
{"id": "C69", "title": "Laws of exponentials, logarithms, powers and roots hold up to a stated error", "statement": "Among the results of calls that return: exp(ln x) differs from x by at most 0.51 units of the result's last decimal plus 2x units of the logarithm's last decimal (and exp of the logarithm always returns a number); ln(exp x), |x| <= 2000, differs from x by at most one unit plus 2/10^15; ln(x*y) differs from ln x + ln y by less than one unit of each of the three; exp(x+y) differs from exp(x)*exp(y) by a relative error of at most 4/10^15 and all three calls return numbers; x^(y+z) differs from x^y * x^z by a relative error of at most 4/10^14 (exponents that are not 32-bit integers); x^0.5 differs from sqrt(x) by at most 0.52 units of each (plus |ln x|/10^5); and log_y(x) * ln(y) differs from ln(x) by at most 0.51 |ln y| units of the first, one unit of ln y times log_y x, and one unit of ln x.", "quantifier": "every pair or triple of positive (for exp: any) numerics within the stated magnitude ranges, any build, every libm accurate to 10^-10", "why_tests_cant": "The laws relate several independent approximations whose scales are all chosen separately from floating-point estimates; a sample of arguments cannot show that the errors never accumulate beyond the bound.", "anchors": ["src/num.rs: Numeric::exp, Numeric::ln, Numeric::log, Numeric::pow, Numeric::sqrt, Numeric::checked_mul, Numeric::checked_add", "src/var.rs: exp_common, ln_common, log_common, power_common, sqrt_common"]}
{"id": "C70", "title": "The size of a number in bytes", "statement": "as_bytes of a number the library made is the shortest of all stored forms of that number with that scale. Its length is determined by the number: a header of 6 bytes (if the scale is at most 63 and the first group of four decimals has a position from -64 to 63) or 8 bytes, and two bytes for every group of four decimals from the first to the last that is not zero; zero has no groups. No number takes more than 73736 bytes.", "quantifier": "every numeric the library makes, every other stored form of the same number, either byte order of the length word", "why_tests_cant": "Minimality is a claim about all other encodings of all numbers, whose number is unbounded; a mistake in the header choice or in stripping would show only at particular weights and scales.", "anchors": ["src/num.rs NumericBuf::as_bytes", "src/binary.rs NumericBinary::can_be_short", "src/var.rs strip", "src/var.rs into_numeric_buf"]}
{"id": "C71", "title": "A debug build and a release build never disagree", "statement": "Every function of the API, given the same arguments (also byte strings that hold no proper number), ends in a debug build as it ends in a release build, with the same result or the same panic, unless the debug build stops at a debug assertion or an arithmetic overflow check. A whole program that chooses its calls from the answers it gets, and that is told of no such check in a debug build, gets the same answers in a release build and leaves the same memory.", "quantifier": "every function, every argument, every program and every number of calls, either byte order of the length word, every layout of results, every platform arithmetic", "why_tests_cant": "Tests run one build; that the other behaves alike for all inputs, or that the checks have no effect of their own, is a claim about pairs of runs on unboundedly many inputs.", "anchors": ["src/var.rs debug_assert", "src/num.rs", "src/binary.rs", "src/data.rs", "src/convert.rs"]}
{"id": "C72", "title": "Adding up, multiplying, averaging, searching and sorting lists", "statement": "A loop that adds up a list with checked_add never panics: it gives the exact sum, with the largest of the scales, if every running total is below 10^131072, and None if some running total reaches it. If two orders of the same list both give a sum, the sums are the same bytes; if no number is negative, every order gives the same sum, or every order gives None, exactly when the exact sum does not fit; with both signs one order can overflow where another does not. A NaN in the list makes the sum NaN unless a sum before it overflows. A product that is returned is exact, has the sum of the scales, and is the same bytes in every order; of non-zero whole numbers it is None exactly when the exact product does not fit. The sum divided by the count is within half a unit of the exact mean. Searching for the largest or smallest number (NaN the largest) ends with a number of the list that bounds all the others; any two ascending arrangements of a list agree place by place up to ==.", "quantifier": "every list of numbers of any length, every order of it, every starting number", "why_tests_cant": "The number of additions is unbounded and the claim is about every permutation of the list; rounding or a scale lost in one step would only show for some orders.", "anchors": ["src/num.rs checked_add", "src/num.rs checked_mul", "src/num.rs checked_div", "src/num.rs PartialOrd/Ord", "src/ops.rs"]}
{"id": "C73", "title": "Threads that share numbers and take roots, logarithms, exponentials and powers", "statement": "Any number of threads use a set of shared numbers (results of roots and powers among them) through shared references, also as arguments of sqrt, ln, log, log2, log10, exp and pow, and make, change and drop numbers of their own. Under every schedule every thread gets exactly the answers it gets when it runs alone, the shared numbers stay the same bit for bit, and no allocation is lost or owned twice; two schedules that give a thread equally many turns give it the same answers. The only other outcome is a call that runs on, and then the same thread alone runs on in the same call: if every thread alone gets its answers, all get them under every schedule.", "quantifier": "every number of threads, every legal program per thread, every schedule, every reachable memory, both byte orders, debug and release builds", "why_tests_cant": "The schedules are unboundedly many, and results of roots and powers are not exactly specified, so a test would have to compare every interleaving with the runs of the threads alone.", "anchors": ["src/num.rs unsafe impl Send/Sync", "src/data.rs", "src/num.rs sqrt/ln/log/exp/pow"]}
{"id": "C74", "title": "Deserialising arbitrary bytes", "statement": "Deserialising bytes (a safe function) accepts any byte string. A debug build returns exactly when the length word is the number of bytes and the header is there, and otherwise ends at the debug assertion, at the overflow check, or reads behind the bytes; a release build returns exactly when the bytes cover what their length word declares, and reads behind their end on every other input. What is returned says the same as the input: NaN for a NaN header, otherwise the same sign, weight, scale and digits, whatever the digits are; it takes no more bytes than were declared, its own bytes are complete, and deserialising them gives it again. Bytes that are the digits of a number give that number. Both builds agree on complete bytes.", "quantifier": "every byte string of every length below 2^32 - 8, odd lengths and lying length words included; both byte orders of the length word; debug and release builds", "why_tests_cant": "the input is arbitrary bytes from outside; tests only feed bytes that the library wrote itself", "anchors": ["src/num.rs: Deserialize, visit_bytes, from_bytes_unchecked, as_binary, to_owned", "src/binary.rs: NumericBinary::as_var, NumericDigits::as_slice, VarLen"]}
{"id": "C75", "title": "Comparing and hashing numbers from arbitrary bytes", "statement": "For numbers deserialised from arbitrary bytes: the queries (is NaN, is negative, is positive, scale) never fail. A release build's comparison never fails; a debug build's fails only by the overflow check, and only if a digit is negative. When no digit is negative and the digits are not all zeros, comparison is the order of the magnitudes that the digits have in base 32768, with NaN greatest and equal to itself, digits of 10000 and more included; when no digit is negative it is the comparison of C21, with its integer arithmetic free of overflow. A number is always equal to itself. Hashing never fails, and numbers that compare as equal feed the hasher the same data, whatever the digits are. With negative digits the order is not one: two numbers can each be less than the other (release), and three numbers can form a cycle (both builds).", "quantifier": "every pair of byte strings below 2^32 - 8 bytes that deserialise, any digits, any weights, any scales; debug and release builds; both byte orders", "why_tests_cant": "the contract of Ord, Eq and Hash for every pair of inputs from outside, including those the library would never write", "anchors": ["src/num.rs: Deserialize, Numeric::cmp, Hash", "src/ops.rs: Ord, PartialEq, PartialOrd", "src/var.rs: cmp_abs, cmp_common"]}
{"id": "C76", "title": "Negating numbers from arbitrary bytes", "statement": "Negating a number deserialised from arbitrary bytes never fails, in either build, and gives bytes whose length word is right. NaN stays NaN; digits that are all zero give zero without a sign; otherwise the scale stays, the sign changes, the digits stay without the zeros at their two ends, and the weight decreases by the number of leading zeros, in 16 bits. Where that does not wrap, the value is negated. It can wrap: negating a tiny number with a leading zero digit twice gives a huge number, in both builds.", "quantifier": "every byte string below 2^32 - 8 bytes that deserialises, any digits, weights and scales; debug and release builds; both byte orders", "why_tests_cant": "inputs from outside that the library would never write; the wrap needs a weight of -32768 and a leading zero digit", "anchors": ["src/num.rs: Numeric::negate, Deserialize", "src/var.rs: negate, make_result_no_overflow, strip, into_numeric_buf"]}
{"id": "C77", "title": "Printing numbers from arbitrary bytes", "statement": "A release build prints every number deserialised from arbitrary bytes; a debug build stops at a debug assertion exactly when a digit in front of the decimal point is negative, and prints the same text otherwise. The text is NaN, or digits and minus signs with a decimal point exactly when the scale is not 0. Without negative digits it is a decimal numeral without exponent with the sign of the number and at least as many fraction digits as its scale, so the parser reads it. Two numbers can have the same text without being equal, and a text can have a minus sign inside.", "quantifier": "every byte string below 2^32 - 8 bytes that deserialises, any digits, weights and scales; debug and release builds; both byte orders", "why_tests_cant": "inputs from outside that the library would never write", "anchors": ["src/var.rs: write", "src/num.rs: Display, Deserialize"]}
{"id": "C78", "title": "Borrowed numbers", "statement": "A borrowed number over bytes (Deserialize for &Numeric, from_bytes_unchecked) is those bytes, without a copy; text cannot be borrowed. Where the bytes can be copied into an owned number, every answer read off the borrowed bytes is that of the owned copy: comparison, order and hash (the contract of Borrow), is_nan, is_negative, is_positive, scale, negate, abs and the printed text. NaN is neither negative nor positive and has no scale. A number's own bytes, borrowed again, are equal to it. In a release build the queries answer also for bytes without their digits, and then comparing and printing read behind the end.", "quantifier": "every byte string below 2^32 - 8 bytes that can be copied, odd lengths, trailing bytes and any digits included; debug and release builds; both byte orders", "why_tests_cant": "all byte strings from outside; two code paths (in place and copied) must agree on every one", "anchors": ["src/num.rs: Deserialize for &Numeric, from_bytes_unchecked, as_binary, as_bytes, Borrow, cmp, hash, scale, negate, abs", "src/binary.rs: NumericBinary"]}
{"id": "C79", "title": "Copying first makes no difference", "statement": "Let a number be borrowed from bytes (its bytes may have a header the library would not write, trailing bytes, or any digits), and let the copy into an owned number succeed. Then every operation gives the same result, or the same failure, on the borrowed number as on the copy: addition, subtraction, multiplication, division, truncating division, remainder (on either side, with any other number), rounding, truncation, ceil, floor, signum, increment, copying, text in all formats, conversions to integers and floats, square roots, logarithms, exponentials and powers.", "quantifier": "every borrowed number of whole 16-bit words below 2^32 - 8 bytes, every other operand, every scale, integer type, float reader and fuel; debug and release builds; both byte orders", "why_tests_cant": "it equates two representations for every operation and every byte string", "anchors": ["src/num.rs: Numeric (all methods), to_owned, as_binary, as_var", "src/binary.rs: as_var", "src/convert.rs: TryFrom<&Numeric>"]}
{"id": "C80", "title": "Adding and subtracting numbers from arbitrary bytes", "statement": "Let two numbers be read from byte strings by deserialisation, which accepts any 16-bit digits. If their digits are in 0..16383, addition and subtraction are exact in base 10000, in debug and release builds: the result has complete bytes, the larger scale and the exact amount, and is missing only if a weight is at an end of its range. A release build never panics for any digits. A debug build gives an exact result for any digits, including negative ones, or panics. NaN with anything gives NaN. (Defects: with digits above 16383 a release build wraps, and adding a positive number to itself gives a negative digit; exact results may have digits outside 0..9999.)", "quantifier": "every pair of byte strings of at most 10^8 bytes that deserialisation accepts; debug and release builds; both byte orders", "why_tests_cant": "the carry and borrow chains and the order of magnitudes have to fit together for every digit string and alignment, including digits that the library never writes", "anchors": ["src/num.rs: checked_add, checked_sub", "src/var.rs: add_abs, sub_abs, cmp_abs, add_common, sub_common, make_result"]}
{"id": "C81", "title": "Integer conversions of numbers from arbitrary bytes", "statement": "A number that is read from a byte string by deserialisation and has no negative digit converts to each of the integer types without a panic, in debug and release builds. The result is the integer that the bytes say: the digits in front of the decimal point in base 10000, whatever they are in 0..32767, and one more if the first digit behind the point is at least 5000; it is the overflow error exactly if the type does not have that integer. With digits below 10000 this is the amount rounded to the nearest integer, ties away from zero. NaN is the invalid error. (Defects: with a digit above 9999 behind the point it is not the nearest integer, 2.5 can convert to 1; a negative digit can make a debug build panic.)", "quantifier": "every byte string of at most 10^8 bytes that deserialisation accepts; every integer type; debug and release builds; both byte orders", "why_tests_cant": "the carry chain of the rounding and the overflow checks of the accumulation have to agree for every digit string and weight, including digits the library never writes", "anchors": ["src/convert.rs: into_signed, into_unsigned, TryFrom<&Numeric> for integers", "src/var.rs: round_common, strip"]}
{"id": "C82", "title": "Rounding and truncating numbers from arbitrary bytes", "statement": "A number that is read from a byte string by deserialisation and has no negative digit is truncated at any scale without a panic, in debug and release builds; one with digits in 0..31767 is also rounded at any scale, and only a number of the largest weight can panic, with the overflow message. The results are complete bytes with the scale asked for (limited to 0..1000) and an exact amount in base 10000: every digit loses its decimal places behind the place asked for, and rounding adds one unit in that place exactly if the part cut off the digit next to it is at least half a unit. With digits below 10000 these are the amount truncated, and rounded to nearest with ties away from zero. NaN stays NaN. (Defects: with a digit above 9999 the rounded amount need not be nearest, 2.5 can round to 1; a digit above 31767 can make a debug build panic and a release build wrap to a negative digit.)", "quantifier": "every byte string of at most 10^8 bytes that deserialisation accepts; every scale; debug and release builds; both byte orders", "why_tests_cant": "the position of the cut, the carry chain and the stripping have to fit together for every digit string, weight and scale, including digits the library never writes", "anchors": ["src/num.rs: round, trunc", "src/var.rs: round_common, trunc_common, strip, make_result, make_result_no_overflow"]}
{"id": "C83", "title": "Ceil and floor of numbers from arbitrary bytes", "statement": "For a number that is read from a byte string by deserialisation and has digits in 0..16383, ceil and floor give, in debug and release builds, complete bytes of scale 0 with an exact amount in base 10000: the amount without the digits behind the decimal point, one more (ceil of a number that is not negative) or one less (floor of a negative number) exactly if there is a part behind the point, that is a digit there that is not 0, or any digit at all if the first digit is behind the point. Only a number of the largest weight can panic, with the overflow message. NaN stays NaN. (Defects: a zero stored with a digit behind the point has the ceiling 1, and the ceiling of 1.5 stored with the digit 15000 is 1.)", "quantifier": "every byte string of at most 10^8 bytes that deserialisation accepts with digits in 0..16383; debug and release builds; both byte orders", "why_tests_cant": "truncation, comparison and addition have to agree on every digit string and weight, including digits the library never writes", "anchors": ["src/num.rs: ceil, floor", "src/var.rs: ceil_common, floor_common, cmp_common, add_common, sub_common"]}
{"id": "C84", "title": "Type modifiers on numbers from arbitrary bytes", "statement": "Applying a type modifier (precision, scale) to a number that is read from a byte string by deserialisation and has digits in 0..31767 never panics, in debug and release builds. The number is rounded at the scale, digit by digit, with complete bytes and an exact amount in base 10000, and an overflow is reported exactly if four times the weight of the result plus the number of decimal places of its first digit (at most four) exceeds precision minus scale; only for a number of the largest weight there may be no result, with an overflow reported. For a result with proper digits that is reported exactly if its absolute value is at least 10^(precision - scale). (Defect: a digit above 9999 counts as four places, so 25000 stored as one digit passes numeric(4,0).)", "quantifier": "every byte string of at most 10^8 bytes that deserialisation accepts with digits in 0..31767; every valid type modifier; debug and release builds; both byte orders", "why_tests_cant": "rounding can raise the weight and stripping lowers it; the report has to agree with the stored result for every digit string, weight and modifier", "anchors": ["src/num.rs: apply_typmod", "src/var.rs: apply_typmod, round_common", "src/typmod.rs: Typmod::new"]}
{"id": "C85", "title": "Multiplying numbers from arbitrary bytes", "statement": "Two numbers that are read from byte strings by deserialisation, with digits in 0..9999 (leading zeros, negative zeros and digits behind the declared scale included) and scales that sum up to at most 16383, are multiplied without a panic, in debug and release builds. The product is a valid number whose scale is the sum of the scales: a product rounded half away from zero at that scale, of the exact product of the stored amounts if neither number has digit groups behind the group of its last declared place, otherwise of a number that is off by at most 1/10000 of the last place per digit of the shorter factor; an overflow is reported exactly if it reaches 10^131072. (Defect: with hidden digits the product with 1 is another number: the digits 1, 5000 at scale 0 print as 1, and times 1 is 2.)", "quantifier": "every pair of byte strings of at most 10^8 bytes that deserialisation accepts with digits in 0..9999; debug and release builds; both byte orders", "why_tests_cant": "the product is computed only to a depth given by weights and scales; which digits are cut off depends on all four numbers of every pair of byte strings", "anchors": ["src/num.rs: checked_mul", "src/var.rs: mul_common, round_common, make_result", "src/binary.rs: NumericBinary"]}
{"id": "C86", "title": "Dividing numbers from arbitrary bytes", "statement": "Two numbers that are read from byte strings by deserialisation, with digits in 0..9999 and a divisor whose first stored digit is not zero, are divided without a panic, in debug and release builds, by checked_div, overflowing_div, the operator and checked_div_trunc: the quotient is a valid number, the exact quotient of the stored amounts (digits behind the scale included) rounded half away from zero at the scale that the amounts determine, or truncated at zero; an overflow is reported exactly if it reaches 10^131072. A divisor without digits, or with a first digit of zero, counts as zero, whatever the rest of the two numbers is: None, or a divide by zero panic of the operators. (Defect: 5 stored with a zero in front equals 5, but dividing by it is a division by zero.)", "quantifier": "every pair of byte strings of at most 10^8 bytes that deserialisation accepts, with digits in 0..9999 (any digits for a divisor with a first digit of zero); debug and release builds; both byte orders", "why_tests_cant": "long division has to keep its invariants for dividends of any length with leading zeros and hidden digits; the scale depends on the first non-zero digits of both", "anchors": ["src/num.rs: checked_div, overflowing_div, checked_div_trunc, checked_rem", "src/var.rs: select_div_scale, div_common, mod_common", "src/ops.rs: Div, Rem"]}
{"id": "C87", "title": "Remainders of numbers from arbitrary bytes", "statement": "The remainder of two numbers that are read from byte strings by deserialisation, with digits in 0..9999 and a divisor whose first stored digit is not zero, is computed without a panic, in debug and release builds. It is the exact dividend minus the product of the truncated quotient and the divisor, that product being rounded half away from zero at the declared scale of the divisor; the result is complete bytes at the larger scale, and it is missing only for dividends at the ends of the range of weights. If the divisor has no decimal places behind its scale, it is the exact remainder, smaller than the divisor and with the sign of the dividend. NaN operands give NaN for products, quotients and remainders. (Defect: otherwise the remainder is wrong: 5 modulo 1.5 with the divisor at scale 0 is 0.)", "quantifier": "every pair of byte strings of at most 10^8 bytes that deserialisation accepts with digits in 0..9999; debug and release builds; both byte orders", "why_tests_cant": "three roundings of different depth compose; exactness has to hold for every quotient, however long", "anchors": ["src/num.rs: checked_rem", "src/var.rs: mod_common, div_common, mul_common, sub_common"]}
{"id": "C88", "title": "Square roots of numbers from arbitrary bytes", "statement": "The square root of a number that is read from a byte string by deserialisation, with digits in 0..9999, a first digit that is not zero, no decimal places behind its scale and no minus sign, is, whenever it returns, a valid number at the documented scale within 0.500000016 units of the exact root of the stored amount, in debug and release builds; it panics only for amounts below 10^-2016, and the other ways not to return are those of valid numbers (C53, C54). A number with a minus sign panics with the message about negative numbers, even a zero, whatever its digits are; NaN gives NaN; a number without digits gives zero. (Defect: the scale comes from the stored weight, so a zero in front costs digits: the root of 5 has 15 places, that of the equal number stored as 0, 5 has 13.)", "quantifier": "every byte string that deserialisation accepts (at most 380000 bytes and the stated form for the accuracy, 10^8 bytes for the rest); every number of Newton iterations; debug and release builds; both byte orders", "why_tests_cant": "the accuracy of a Newton iteration with approximate division has to hold for every digit string and weight, with trailing zeros that no valid number has", "anchors": ["src/num.rs: sqrt", "src/var.rs: sqrt, sqrt_common, div_fast_common"]}
{"id": "C89", "title": "Float conversions of numbers from arbitrary bytes", "statement": "A number that is read from a byte string by deserialisation, with digits in 0..9999 that are not all zero, no decimal places behind its scale and either a first digit that is not zero or at most one digit in front of the point, converts to f64 as the double nearest to the stored amount (an infinity of its sign from 2^1024 - 2^970 on), and to f32 as the single nearest to that double, which is one of the two singles around the amount; the f32 conversion fails with an overflow error beyond and below the range of the singles, and gives infinity or zero beyond and below that of the doubles, exactly as for valid numbers (C56, C57). Trailing zero digits that a valid number does not have make no difference.", "quantifier": "every byte string of at most 10^8 bytes that deserialisation accepts, of the stated form; every correctly rounding string-to-double routine; debug and release builds; both byte orders", "why_tests_cant": "correct rounding must hold for every stored amount, however long its digit string is and wherever the rounding boundary lies", "anchors": ["src/convert.rs: TryFrom<&NumericVar> for f64, TryFrom<&NumericVar> for f32", "src/var.rs: write"]}
{"id": "C90", "title": "Natural logarithms of numbers from arbitrary bytes", "statement": "The natural logarithm of a number that is read from a byte string by deserialisation, with digits in 0..9999, a first digit that is not zero, no decimal places behind its scale and no minus sign, never panics; whenever it returns, it is a valid number, at a scale t of at most 1000 and at least that of the operand up to this cap, within half a unit plus (t+10)*max(1, 22|ln x|)*10^-8 units of the logarithm of the stored amount x, and with 15 correct significant digits unless t is 1000 or x is 1. A number with digits and a minus sign panics as a negative number, even if the digits are zeros; a number without digits panics as zero whatever its sign; NaN gives NaN.", "quantifier": "every byte string that deserialisation accepts (at most 380000 bytes and the stated form for the accuracy, 10^8 bytes for the panics); every number of iterations; every mathematical library accurate to 10^-10; debug and release builds; both byte orders", "why_tests_cant": "the accuracy of a series after repeated square roots has to hold for every digit string and weight, with trailing zeros that no valid number has", "anchors": ["src/num.rs: ln", "src/var.rs: ln, ln_common, estimate_ln_dweight, cmp_common"]}
{"id": "C91", "title": "Logarithms to any base of numbers from arbitrary bytes", "statement": "log, log2 and log10 of numbers (and bases) that are read from byte strings by deserialisation, with digits in 0..9999, a first digit that is not zero, no decimal places behind the scale and no minus sign, the argument at least 10^-900 and the base at least 10^-190 away from one: whenever the call returns, the result is a valid number within 0.51 units in its last place of the exact logarithm of the stored amounts, at a scale of at most 1000 and at least those of the operands up to this cap, with 14 correct significant digits unless the scale is 1000.", "quantifier": "all pairs of byte strings of the stated form, of at most 380000 bytes, that deserialisation accepts; every number of iterations; every mathematical library accurate to 10^-10; debug and release builds; both byte orders", "why_tests_cant": "the error of a quotient of two approximated logarithms has to be bounded for every pair of digit strings and weights", "anchors": ["src/num.rs: log, log2, log10", "src/var.rs: log, log_common, ln_common, estimate_ln_dweight"]}
