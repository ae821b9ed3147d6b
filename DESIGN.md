# DESIGN — formal model of cod-technologies/pgnumeric in Lean 4

## 1. Shape of the model

All modules live under `lean/Verif/`.

| Module | Contents |
|---|---|
| `Model/*` | function-by-function model of the Rust code; every definition cites `/repo/src/...` lines |
| `Spec*.lean` | the independent specification: rational value of a digit string, rounding functions, numeral grammar (`SpecText`), storage bytes (`SpecBuf`), `%g` output (`SpecFloat`), integer powers (`SpecPow`), scientific notation (`SpecSci`), libm accuracy (`SpecLibm`), binary floating-point formats and `strtod` (`SpecIeee`), programs over the API (`SpecRun`), stored forms of a number (`SpecStored`), programs that own numbers (`SpecHeap`), programs that look at the answers (`SpecClient`), threads (`SpecThreads`), what arbitrary bytes say (`SpecUntrusted`) |
| `Proofs/*` | helper lemmas |
| `Props/*` | the property theorems (one per `Cnn`), each followed by an `example` showing its hypotheses are met |

Fallible Rust code is modelled in `M := Except Fault`. A `Fault` is raised by the model for: an index
out of bounds (`oob`: a Rust panic, or undefined behaviour behind `get_unchecked`), an i16/i32
accumulator overflow (`overflow`), a failed `debug_assert!` (`assert`), an explicit panic (`panic msg`),
or an exhausted loop bound (`diverge`). So a theorem of the form `∃ r, f x = .ok r ∧ …` says: no panic,
no out-of-bounds access, no arithmetic overflow, no failed debug assertion, and the stated result.
Because the checked (debug) behaviour never faults, the release build (wrapping arithmetic, assertions
compiled out) computes the same thing.

Values: a `NumericVar` is `(weight, dscale, sign, digits : List Int)`; its meaning is the rational
`± Σ digits[i] * 10000^(weight-i)` (`Spec.lean`). Storage (`NumericBinary`) is modelled at the level of the
32-bit length word and 16-bit words (and bytes, little-endian host). The in-memory buffer with spare
space (`NumericData`, `NumericBuf`) is a separate layer which is proved to refine the list layer.

## 2. Trusted base

* Lean 4.33 kernel; axioms `propext`, `Classical.choice`, `Quot.sound` only (Mathlib's usual three). No axiom is added.
* The reading of the Rust source into the model (cited line by line). No code is run.
* Modelled: src/binary.rs, src/data.rs (offset/length bookkeeping, header writing), src/parse.rs,
  src/typmod.rs, src/num.rs (API), src/ops.rs (operator semantics), src/convert.rs (integers; floats in both
  directions, with `snprintf` and `strtod` as externals), src/var.rs: every function — add, sub, mul, div, div_trunc, rem, `div_fast_common`, rounding,
  comparison, sqrt, ln, log, exp, power_int, power_common, factorial, write, write_sci, normalize, apply_typmod.
* Allocations, pointers and `Drop` of `NumericData`/`NumericBuf` are modelled (`Model/Heap.lean`), for the in-place operations, clone and drop; the
  temporaries inside arithmetic are not followed.
* Threads (`Send`/`Sync`) are modelled at the granularity of calls (`Model/Threads.lean`, C66).
* Not modelled: performance, the serde frameworks (only the pair text/bytes they exchange), and the externals below.
* Externals, each a parameter of the model, with its assumed contract a visible hypothesis of the theorems that use it:
  * libc `snprintf("%.*g")` (float to numeric): the specification `printfG` (`SpecFloat.lean`); `FloatRange` says the exponent is that of a
    finite double.
  * libm `log10` and `ln`: structure `Libm`; the theorems on accuracy assume `LibmOK` (`SpecLibm.lean`): absolute error at most 10^-10 for the
    logarithms in the range the code uses, exactness of `log10` on 1, 10, 100, 1000, and the contract of `strtod` below. `LibmOK` is
    satisfiable (example in `Props/Sci.lean`). Theorems without that hypothesis hold for an arbitrary `Libm`, including a wrong one.
  * the crate `strtod` (numeric to `f64`/`f32`, and inside exp and pow): `StrtodOK` (`SpecIeee.lean`): the text of a decimal number is read as
    the nearest double, ties to even, an infinity beyond the range; the sign of a zero is left open. `exactStrtod` (`Proofs/Strtod.lean`) meets it.
  * the cast `f64 as f32`: IEEE 754 round to nearest even (`F64.castF32`, `Model/Ieee.lean`), with infinities and subnormals.
* i32 arithmetic on weights, scales, digit counts and loop limits: the model computes in `Int` and checks every intermediate result with
  `fits` (`Model/Basic.lean`), which raises the fault `overflow` outside i32, in both builds (a release build would wrap there: runs that overflow are
  not modelled further). So a theorem concluding `= .ok` shows that none of these expressions overflows. The kernel theorems on arbitrary variables
  (C36, C46) carry the bounds |weight|, length ≤ 10^8; the API theorems carry none, the parser the hypothesis "shorter than 2^29 bytes".
  i16/i32 *accumulator* arithmetic (digits, carries, borrows, products) is likewise checked; where the debug and release builds differ
  (wrapping versus panicking) the model carries a `Build` parameter and the theorems quantify over it.
* `f64` arithmetic (`Model/F64.lean`): rationals rounded to 53 bits, ties to even; the exponent range is unbounded (no infinities, no
  subnormals) for the arithmetic inside div_fast, exp, ln and pow; where exp and pow read a double that is infinite the model uses ±2^1024, which
  the code's next comparison (against 6000) treats alike. The conversions to f32/f64 (C56, C57) have the full range.
* Loops that the code runs "until convergence" (Newton iteration of sqrt, repeated square roots and series of ln, series of exp)
  take a `fuel` argument; running out is the fault `diverge`. For exp the theorem C51 shows that fuel 4200 always suffices; for sqrt there are inputs
  that really never terminate (C47, §4 item 11), so accuracy is stated for the runs that return; C53 shows
  that 60 rounds suffice outside a thin set of arguments.
* Host: little-endian, 64-bit. The varlen header byte order feature is a field of `Build`.

## 3. Plan per property

* C01–C03 parser: model the byte scanner; specification is an explicit grammar (concatenations of lists);
  value by induction over 4-digit chunks.
* C04, C05, C23, C41: model `write`/`normalize` as byte-list producers; prove the text denotes the value and
  is re-read to the same canonical var.
* C06, C42: BitVec model of headers; finite tables over whole header domains by kernel `decide`, lifted.
* C07–C11, C38: digit-window sums; carry/borrow loop invariants; canonical form is unique.
* C10, C46: accumulator invariant of `mul_common` (value of `dig[]` and the max_dig bound), truncation bound.
* C12–C16: single digit path and Knuth D with its invariant (remainder < divisor), then rounding lemma.
* C17–C19, C44, C45: `round_common`/`trunc_common` against `⌊·⌋` specifications in ℚ.
* C21, C22: `cmp_abs` against the order on ℚ; hash input stream as a list of writes.
* C24, C14, C33, C40, C43: decision logic with explicit panics.
* C25, C26: bit arithmetic on i32, digit-count argument.
* C27, C28: FALSE of the code (see §4); negation proved with witnesses, `_partial` theorem for the rest.
* C29, C30: width-checked accumulation loops.
* C31: product loop by induction; the numeric bounds of 32177! by kernel computation on big naturals.
* C32, C33: loop invariant of repeated squaring, for every floating point estimate (parameter).
* C34, C47: f64 operations as a rounding function with relative error; the fast division by an error invariant on the
  quotient digits (`Proofs/Fast.lean`); sqrt accuracy on return, from the exit test of the Newton iteration.
* C35: exact scientific notation; below 10^-1001 the code panics (proved).
* C36: part of every `= .ok` theorem above, collected.
* C37: buffer layer refinement.
* C39: parameterised by the printed string; theorem about every string of %g shape.
* C48: refinement over programs.
* C49, C50: `Work` variables (canonical up to range) with value error bounds in ℝ; series invariant, square-root reduction invariant,
  quotient error; weight estimates from `LibmOK`.
* C53: on the grid of the working scale one Newton step is a rounded mean; the gap to the root at least halves until it is below two units,
  and then the iteration settles unless the root sits where the two roundings oscillate (fraction 1/4 of a unit). Perfect squares have fraction 0.
* C34, C49, C50, C53 in debug builds: the accumulator of the fast division overflows only if the divisor has more than 21 groups of four digits
  and the quotient more than 20 (`divFast_full`: each accumulator cell is touched by at most 21 unnormalised steps); the Newton iterates of a
  short number have at most 21 groups (`Proofs/SqrtShort.lean`), and so do all the divisors of the logarithm (`Proofs/LnShort.lean`).
* C54: every step of the working lemmas of C47, C49, C50, C52 either succeeds or is one of the named faults; composed.
* C55: invariant of the repeated squaring: relative error (1+eps)^c - 1, c counting multiplications with multiplicity; the working precision is
  bounded from below through the logarithm of the leading group, which gives the factor (|x|/L)^k. One complete run shows the wrong zero.
* C51: exact halving, series invariant, squarings in the logarithmic domain, final rounding.
* C52: composition of C49's and C51's working lemmas: the first logarithm fixes the scale, the second the exponent; error of the
  exponent in the logarithmic domain. Two complete runs (`Props/PowTiny.lean`) show that the wrong answers for tiny powers really are returned.
  `Props/PowSafe.lean`: with short operands the two logarithms are asked for at most 55 decimals, so that LnShort applies and debug builds cannot overflow.
* C56, C57: rounding to a binary format (nearest, monotone, relative error, exact thresholds) for an arbitrary format, then composed with
  the text theorem of C04 and the contract of `strtod`; C58: a perturbation below a third of 10^-P is undone by rounding to P digits.
* C59: `SpecStored.lean` lays out headers and digits arithmetically; `asVar` is shown to read every layout; the loose versions of the
  digit-string lemmas (no canonical form assumed) of add, sub, mul, div, mod, round, trunc, ceil, floor, cmp, hash, write and the integer conversions
  give the results. The multiplication needs the deeper bound `mulCommon_deep` (zero groups in front lengthen the product). Not covered: square root, logarithms,
  exponential, powers and floats of padded forms (they choose their scale from the stored weight).
* C60: `Model/Heap.lean` puts an allocator under the buffer model of C37: pointers, lengths, layouts, a log of releases. Each operation is shown to do
  what it does on a buffer and to move only its own allocation (`Ev`); the invariant (live allocations = owned numbers, injectively) is kept by every step.
* C61: `SpecClient.lean` is a labelled transition system over exact values (`Step`), and programs are functions from the answers so far to the next call.
  Every API model is shown to simulate one step (`callApi_sim`), using the theorems of the other properties; `Step` is shown to be deterministic; both
  are then lifted to runs by induction on the number of calls. Operators on owned operands, compound assignment and conversions from floats are
  among the calls; `sqrt`, `ln`, `exp`, `log`, `pow` and conversions to floats are not.
* C62: `Model/Refs.lean` records offset, size and alignment of the header reference; the layout of a copy is computed from `setHeader`; the
  weight of a canonical number is read off its magnitude.
* C63: equal numbers are both NaN or hold the same rational; then by the specifications of the single operations (C08-C24). That division is not
  a congruence is shown on 1 / 3 with scales 0 and 30.
* C64: from the specification of division (C12), truncating division (C15) and remainder (C16); the scale of a quotient is blind to signs; integers are
  fixed points of the (monotone) rounding, so `trunc(a / b)` is off from the truncating division by at most one.
* C65: the error bounds of C34, C49, C50, C51, C52 are all below one unit of the result's scale, so no number of that scale can separate the result
  from the exact value; sign, order and inverse laws follow with real analysis (monotonicity of exp and log, log u ≤ u − 1).
* C66: `SpecThreads.lean` gives every thread its own names for numbers; `Model/Threads.lean` interleaves the calls of `Model/Client.lean`. A call under
  global names is shown to be the same step on the thread's own list (`step_transfer`, case by case over the specification of C61), and to leave
  alone every number it does not borrow mutably or take (`callApi_frame`). Invariant: every thread's list agrees with memory and its run so far is a
  run of the specification alone; own numbers of different threads are disjoint. Calls are atomic in the model; `C66_stable` (nothing a
  thread sees changes while others run) and `C66_reads` (answers depend only on the bits named) say why that loses nothing.
* C67: `Model/Messages.lean` gives the texts; the classification of strings is C01 and C03, of conversions C30 and C39.
* C68: `SpecReal.lean` says what each of the seven functions may give back; `Model/RealClient.lean` adds them to the programs of C61. Each call is a case analysis over C33, C34, C43, C49-C55 (`Lawful`), the program is an induction over its calls with the invariant of C60. Loops of the approximations are bounded by `fuel` (any number from 4200 on); running out of it is the outcome "runs on".
* C69: the accuracy theorems C34, C49-C52 with the exact product and sum of C08, C10; triangle inequality and the first-order bounds |e^u - 1| <= 2|u|, |ln(1+u)| <= 2|u|.
* C70: the bytes of an encoded variable are counted for both headers; weight and digit count of a canonical variable are determined by its value (first and last digit are not zero); stripping a stored form removes at least as many digits as it lowers the weight.
* C71: a relation between the runs of two builds (`Verif/SpecBuild.lean`) that passes through sequencing and branching; one lemma per function of the model, by induction for the loops; whole programs by induction on the number of calls. The wrapped value after an overflow in a release build is not related to anything: the debug build has stopped there.
* C72: the loops a user writes over a list (`Verif/SpecAggregate.lean`: fold with `checked_add`, `checked_mul`, `<`), by induction on the list from the exactness of one step; independence of the order from `List.Perm` and the uniqueness of the bytes of a number.
* C73: the threads of C66 with the calls of C68 (`Verif/SpecRealThreads.lean`, `Verif/Model/RealThreads.lean`); as the specification of these calls allows several results, the invariant pairs every thread with the memory it would have if it ran alone, and one lemma shows that a call gives the same outcome on any two stored forms of the same values.
* C74: `Verif/SpecUntrusted.lean` reads the layout from arbitrary bytes in arithmetic; `Verif/Model/Untrusted.lean` does the loads of the code byte by byte, with the `u32` subtraction that panics or wraps; `Bin.fromBytes`, which the rest of the model uses, views byte strings of even length at least 6 as words, and agrees with it there (`C74_words`).
* C75: `Verif/Model/Untrusted.lean` has the comparison with its `i16` subtraction (wraps in release, panics in debug); `mag32768`/`rankAt`/`Hostile` in `Verif/SpecUntrusted.lean` state the order. The order theorem has the hypothesis that no digit is negative; `C75_not_antisymmetric` and `C75_cycle` show that it is needed. Equality and hashing (`C75_self`, `C75_hash`) need no such hypothesis.
* C76: the model's `negate` (`Model/Num.lean`) does no arithmetic on digits, so it stands for all 16-bit digits; the theorem says what the bytes of the result say (`SpecUntrusted.lean`), for any split of the digits into zeros, a core and zeros.
* C77: `Untrusted.write` prints `i16` digits with their sign; it is `Text.write` where no digit is negative (`C77_model`). `Numeral` is the grammar of C01.
* C78: `Verif/Model/Borrowed.lean` reads every method of a borrowed number off its bytes (header loads, digit loads); the theorems compare with the owned copy of C74.
* C79: every method reads a number only through its length check, its NaN flag, its sign and `as_var`; these agree with those of the owned copy (C78), so the results agree.
* C80: `Verif/Model/UntrustedAdd.lean` is `add_common`/`sub_common` with the 16-bit comparison of C75; `add_abs` and `sub_abs` already compute in 16 bits.
  Carries are followed in base 10000; that no borrow is left over follows from the order in base 32768, where the comparison is exact. `amountAt` in `SpecUntrusted`.
* C81: no new model: `toInt` with foreign digits. The lemmas on `carryUp` and the accumulation loop are proved again for digits in 0..32767 (`Verif/Proofs/UntrustedInt.lean`);
  `integerAt` (`Verif/SpecUntrusted.lean`) is the reading of the bytes. Negative digits are excluded: for them only a debug-build witness is given (the model's casts and
  negation do not wrap as a release build does).
* C82: no new model: `Num.round` and `Num.trunc` with foreign digits. `magCut` and `magHalf` (`Verif/SpecUntrusted.lean`) say digit by digit what is kept and what is
  added; the proof splits the digits at the cut (`Verif/Proofs/UntrustedRound.lean`).
* C83: `Verif/Model/UntrustedCeil.lean` is `ceil`/`floor` with the 16-bit comparison of C75 and the addition of C80; `C83_model` says it is the `ceil`/`floor` of the rest of
  the model where no digit is negative.
* C84: no new model: `Num.applyTypmod` with foreign digits, by C82's rounding; the digit scan is related to the first digit of the stripped result.
* C85: no new model: `Num.checkedMul` with foreign proper digits, by the general theorem on `mulCommon` (which asks neither for stripped digits nor for a minimal scale).
* C86: no new model: `Num.checkedDiv`, `overflowingDiv`, `opDiv`, `checkedDivTrunc` with foreign proper digits, by the general theorem on `divCommon`; the scale through the first non-zero digit.
* C87: no new model: `Num.checkedRem` as the composition of C86's quotient, C85's product and C80's exact difference; bounds of the product from those of the dividend.
* C88: no new model: `Num.sqrt` on a deserialised number, by the theorem on `sqrtCommon`, whose hypotheses are derived from the bytes; the example of the defect is run by the kernel.
* C89: no new model: `Num.toF64`, `Num.toF32` on a deserialised number, through the text of a number with trailing zeros (C77) and the specification of the C routine, which
  speaks about texts without superfluous leading zeros; hence the condition on the first digit.
* C90: no new model: `Num.ln` on a deserialised number, by the theorems on `lnCommon` and `estimateLnDweight`, now stated for positive working variables instead of valid numbers.
* C91: no new model: `Num.log`, `log2`, `log10` on deserialised numbers, by the theorem on `logCommon`, now stated for positive working variables.
* Foreign digits (outside 0..9999) are covered for reading, queries, order, hash, printing, sign changes, `+`, `-`, rounding, truncation, ceil, floor, type modifiers and
  integer conversions (C74-C84). Multiplication, division and remainder of deserialised numbers are covered for proper digits, 0..9999, with leading zeros and digits
  behind the scale (C85-C87), square roots for those with a first digit that is not zero and nothing behind the scale (C88), so logarithms (C90, C91), and float conversions
  for much the same (C89); the theorems on exp and pow are about valid numbers only. The logarithm of a positive number whose digits are all zero is not covered: the code
  takes the `f64` logarithm of zero there, an infinity, and the model's doubles are finite.

## 4. Disagreements found between the code and its documented behaviour

1. `NumericBuf::apply_typmod` on NaN: `make_result` is called on NaN; debug build panics, release build turns NaN into 0 (C28).
2. `NumericBuf::apply_typmod`, when rounding carries past weight 32767, returns `true` but never gives the buffer
   back: `self.buf` stays null, any later use dereferences null (C27).
3. `{:e}`/`{:E}` of a non-zero number below 10^-1001 panics with "attempt to divide by zero": the power of ten underflows to 0 (C35).
4. Parsing rejects literals with very many redundant leading zeros, and zero with a large exponent
   (`"0e200000"`), as overflow although the value fits, because the range check precedes stripping (C03).
5. `power_int` breaks out of its size-estimate loop immediately (condition `< 16` is inverted), so only the first
   base-10000 digit is used; the working precision can be far too small: 1.9^200 is off by more than 10^24 (C32).
6. A zero product whose scales add up to more than 16383 trips a `debug_assert` (C11).
7. A negative base with an integer exponent outside `i32` trips a debug assertion instead of being computed, or, for base -1,
   overflows: the estimate of ln(1) - 1 saturates at `i32::MIN` (C33).
8. `factorial` of a negative number is 1.
9. Dropping a `NumericBuf` frees a `Vec<i16>` allocation as `Vec<u8>`: alignment 1 instead of 2 (C60). 
10. `div_fast_common` can overflow `div[qi] * NBASE` in a debug build.
11. sqrt of very small numbers can panic with "should not be zero"; sqrt(3710043354833666842836714662318530742411107790758794940487738)
    never terminates (C47), and neither do ln of that integer (C49), log2 and log10 of it in a release build (C50), and its powers with an
    exponent that is not a 32-bit integer (C52), which take the square root first.
12. pow with exponent `i32::MIN`: overflow panic in debug, the answer 1 in release (C33).
13. exp(x) returns None ("overflow") for every |x| > 6000, even very negative x (C51).
14. The logarithm to base 1 never returns; a logarithm of a number within 10^-1100 of one to a base in [1.1, 1.5] panics with a division by zero (C50).
15. pow with a fractional exponent and a result below about 10^-1016: the code returns 1 (1.1^-30000.5) or None (0.5^8000.5) instead of 0 (C52).
16. Conversion to f32: 10^39 is an overflow error but 10^400 is `Ok(inf)`; 10^-50 is an overflow error but 10^-400 is `Ok(0)`; the way through
    f64 rounds twice, so the result need not be the nearest single (C57).
17. serde `Deserialize` of bytes (src/num.rs:346-353, 1055-1062) is safe but calls `from_bytes_unchecked`: a length word longer than the input
    is an out-of-bounds read in a release build, a failed assertion in a debug build (C59).
    C74 says exactly for which bytes this happens; digits outside 0..9999 and odd lengths are accepted as they are.
18. The header reference `&NumericBinary` (size 8, alignment 4) is made at an address that is only known to be even; for a number with the long header it
    is misaligned in a 4-aligned allocation, and for a short zero or NaN it extends 2 bytes past the allocation (C62).
19. `{:?}` of a `NumericBuf` prints the whole allocation, including cells that were never written (C62).
20. `==` ignores the scale but `/` does not: 1 / 3 and 1.00 / 3 have quotients of the same scale, but with 30 decimals in the dividend the quotient has 30
    decimals instead of 20, and the two quotients of equal operands differ (C63). PostgreSQL does the same.
21. `trunc(a / b)` is not the truncating division: (10^30 − 1) / 10^30 is rounded to 1 before it is truncated (C64). PostgreSQL does the same.
22. A divisor stored with a zero first digit group counts as zero (src/var.rs:1028 looks at the first group only), although it compares, prints and converts as the
    number it is: checked division gives `None`, the operators panic with "attempt to divide by zero" (C59).
23. Display and `normalize` of a form with a zero first group print the zeros ("-00001.5"), so equal numbers can have different `normalize` texts (C59).
24. `Typmod::default()`, which means "no constraint", prints as "(65535, 65531)" (C67). NaN converted to an integer fails with the text "cannot convert to numeric".
25. In a debug build the square root and the natural logarithm of 99820063.0144022503060387046805490630071107920873095410351116119712781359144015211602
    panic with an arithmetic overflow: the division inside them meets the case of item 10 (C34, C49). A release build returns.
26. After item 17, bytes with a negative digit make a `NumericBuf` whose `Ord` is not an order: the digits -32768 and 0 are each less than the
    other in a release build and panic in a debug build (`C75_not_antisymmetric`), and three numbers form a cycle in both builds (`C75_cycle`).
    Sorting or keying a `BTreeMap` by deserialised numbers is therefore not safe against hostile bytes, although `Eq` and `Hash` agree.
27. After item 17, `negate` of a number with weight -32768 and a leading zero digit wraps the weight to 32767: a tiny number becomes huge (`C76_wraps`).
    The debug assertion in `make_result_no_overflow` does not notice: it joins its four conditions with `||`.
28. After item 17, two numbers that print the same text can be unequal (`C77_same_text`), and a release build prints minus signs inside a number (`C77_minus_inside`).
29. `Deserialize for &Numeric` checks nothing: bytes with a header but without the declared digits are accepted, answer queries, and are read behind their end
    by the first comparison or printing in a release build (`C78_head_only`).
30. Digits above 16383 in deserialised numbers: a release build's addition wraps (32767 + 32767 gives the digit -2 of a positive number), a debug build panics
    (`C80_wraps`). Smaller foreign digits give exact sums, with digits outside 0..9999 (`C80_odd_digits`), which then print as in C77.
31. Converting a deserialised number with a digit above 9999 behind the decimal point: only `digit >= 5000` is tested, so the bytes of amount 2.5 convert to 1
    (`C81_not_nearest`). A digit of -32768 makes the conversion to `i16` panic in a debug build (`C81_panics`).
32. Rounding a deserialised number: a digit above 31767 overflows 16 bits inside `round_common` (debug builds panic, release builds wrap to a negative digit,
    `C82_wraps`), and 2.5 written with the digit 25000 rounds to 1 (`C82_not_nearest`).
33. `ceil` compares with the truncated number, and a number without digits is below any number with digits: a zero stored as the digit 0 behind the point has the
    ceiling 1 (`C83_zero`); 1.5 stored as the digit 15000 has the ceiling 1 (`C83_below`).
34. A deserialised digit above 9999 passes a type modifier that it does not fit: 25000 stored as one digit is accepted as numeric(4, 0) (`C84_passes`).
35. Digits behind the declared scale are invisible in the text but take part in products: the digits 1, 5000 at scale 0 print as 1 and times 1 is 2 (`C85_hidden_digits`); in a
    remainder the product is rounded first: 5 modulo that number is 0 (`C87_hidden_digits`).
36. Division takes a divisor whose first stored digit is zero for zero: 5 stored as the digits 0, 5 equals 5, but dividing by it is a division by zero (`C86_five_is_zero`).
37. `sqrt` takes the scale of its result from the stored weight: the root of 5 has 15 places, that of the equal number stored as the digits 0, 5 has 13 (`C88_leading_zero`). The
    root of a zero with a minus sign panics as one of a negative number (`C88_sqrt_negative`).
