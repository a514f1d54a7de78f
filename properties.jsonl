{"id": "C01", "title": "UBig addition is exact", "statement": "For all UBig a and b, every form of a + b (owned/borrowed on either side, and +=) returns the UBig whose value is the mathematical sum; the only way it can fail is the 'number too large' panic, and only when the sum does not fit the maximum length.", "quantifier": "all pairs of UBig values of any length, all four ownership forms, all word sizes", "why_tests_cant": "Carry chains can be of any length and the operands of any relative length; the owned/borrowed variants are different code paths.", "anchors": ["src/add_ops.rs: impl Add for UBig, UBig::add_word, add_large_word, add_large", "src/add.rs: add_one_in_place, add_word_in_place, add_same_len_in_place"]}
{"id": "C02", "title": "UBig subtraction is exact or panics", "statement": "For all UBig a and b: if a >= b every form of a - b returns exactly the difference; if a < b every form panics with 'negative UBig', never returning a wrapped value.", "quantifier": "all pairs of UBig values, all four ownership forms", "why_tests_cant": "Borrow chains of any length; the borrow can surface only in the last word; the reference-minus-value form writes the result into the subtrahend's buffer.", "anchors": ["src/add_ops.rs: impl Sub for UBig, sub_word, sub_large_word, sub_large, sub_large_ref_val", "src/add.rs: sub_one_in_place, sub_in_place, sub_same_len_in_place_swap"]}
{"id": "C03", "title": "IBig addition and subtraction are exact", "statement": "For all IBig a and b every form of a + b and a - b returns the mathematical sum/difference, for every combination of signs and magnitudes. The only other outcome is the panic 'number too large', exactly when the result exceeds the size limit.", "quantifier": "all pairs of IBig values, all ownership forms", "why_tests_cant": "Sign/magnitude case split times length/borrow cases; the magnitude subtraction strips leading zero words and decides the sign from the comparison.", "anchors": ["src/add_ops.rs: impl Add/Sub for IBig, sub_ubig_val_val, sub_ubig_val_ref, sub_ubig_ref_ref, IBig::sub_large", "src/add.rs: sub_in_place_with_sign"]}
{"id": "C04", "title": "Multiplication is exact at every size", "statement": "For all UBig (and IBig) a and b, a * b is the mathematical product (with the product sign), whichever of the schoolbook, Karatsuba or Toom-3 algorithms, chunk splitting or single-word path is selected by the operand lengths. The only other outcome is the panic 'number too large', exactly when the result exceeds the size limit.", "quantifier": "all pairs of UBig/IBig values of any lengths, all ownership forms", "why_tests_cant": "Operand lengths select and nest three algorithms recursively; carries of signed intermediate results are only occasionally nonzero, so sampled inputs rarely exercise them.", "anchors": ["src/mul_ops.rs: impl Mul, mul_word, mul_large_word, mul_large", "src/mul/mod.rs: add_signed_mul, add_signed_mul_same_len", "src/mul/simple.rs", "src/mul/karatsuba.rs", "src/mul/toom_3.rs", "src/mul/helpers.rs"]}
{"id": "C05", "title": "UBig division and remainder are exact", "statement": "For all UBig a and b with b != 0, a / b, a % b and div_rem(a, b) return q and r with a = q*b + r and r < b, for every length combination (single word, schoolbook, divide-and-conquer).", "quantifier": "all pairs of UBig values with non-zero divisor, all ownership forms", "why_tests_cant": "Quotient-digit estimation errs only for rare word patterns (the classic add-back case); divide-and-conquer recursion is over unbounded lengths.", "anchors": ["src/div_ops.rs: impl Div/Rem/DivRem for UBig, div_rem_in_lhs", "src/div/mod.rs", "src/div/simple.rs", "src/div/divide_conquer.rs", "src/fast_divide.rs"]}
{"id": "C06", "title": "Division by zero always panics", "statement": "For every UBig or IBig dividend, dividing by zero (div, rem, div_rem, and Euclidean forms) panics with 'divide by 0', and no non-zero divisor causes any panic.", "quantifier": "all dividends, all division operators, all ownership forms", "why_tests_cant": "Zero must be caught on every representation path; absence of panics for all other inputs is a universal claim.", "anchors": ["src/div_ops.rs: div_word, rem_word, div_rem_word, rem_large_word, div_rem_large_word, panic_divide_by_0"]}
{"id": "C07", "title": "IBig division truncates toward zero", "statement": "For all IBig a and b != 0: a / b and a % b satisfy a = q*b + r, |r| < |b|, and r is zero or has the sign of a (quotient rounded toward zero); div_rem returns the same pair.", "quantifier": "all pairs of IBig values with non-zero divisor", "why_tests_cant": "All sign combinations over unbounded magnitudes, including negative-zero remainders that must be normalised.", "anchors": ["src/div_ops.rs: impl Div/Rem/DivRem for IBig"]}
{"id": "C08", "title": "Euclidean division has a non-negative remainder", "statement": "For all IBig a and b != 0: div_euclid, rem_euclid and div_rem_euclid return q, r with a = q*b + r and 0 <= r < |b|.", "quantifier": "all pairs of IBig values with non-zero divisor", "why_tests_cant": "The correction step depends on both signs and on exactness of the division.", "anchors": ["src/div_ops.rs: impl DivEuclid/RemEuclid/DivRemEuclid"]}
{"id": "C09", "title": "Equality and hashing agree with numeric value", "statement": "Every UBig/IBig produced by the public API is in a canonical representation: two such values compare equal, and feed identical data to a hasher, if and only if they are numerically equal; there is no negative zero and no leading zero word.", "quantifier": "all values reachable through constructors and operations", "why_tests_cant": "Derived structural equality is only right if every operation, on every path, normalises; a single un-normalised path breaks HashMap lookups.", "anchors": ["src/ubig.rs: Repr, From<Buffer> for UBig, derive(PartialEq, Eq, Hash)", "src/ibig.rs: from_sign_magnitude"]}
{"id": "C10", "title": "Ordering is the numeric order", "statement": "For all UBig (and IBig) a and b, cmp(a, b) returns Less/Equal/Greater exactly as the integers compare; hence the order is total, transitive, and consistent with ==.", "quantifier": "all pairs of values", "why_tests_cant": "Comparison of unbounded word strings from the most significant end, and sign-magnitude comparison with reversed order for negatives.", "anchors": ["src/cmp.rs: Ord for UBig, Ord for IBig, cmp_same_len"]}
{"id": "C11", "title": "UBig shifts multiply and divide by powers of two", "statement": "For all UBig a and shift n: a << n has value a*2^n and a >> n has value floor(a / 2^n), for owned and borrowed forms, including shifts by more than the length. The only other outcome is the panic 'number too large', exactly when the result exceeds the size limit.", "quantifier": "all UBig values and all usize shift amounts", "why_tests_cant": "Shift amounts cross word boundaries; carries between words; unbounded lengths.", "anchors": ["src/shift_ops.rs: shl_word, shl_large, shl_ref_large, shr_word, shr_large, shr_large_ref", "src/shift.rs"]}
{"id": "C12", "title": "IBig right shift rounds toward minus infinity", "statement": "For all IBig a and shift n: a << n = a*2^n and a >> n = floor(a / 2^n), also for negative a. The only other outcome is the panic 'number too large', exactly when the result exceeds the size limit.", "quantifier": "all IBig values and shift amounts", "why_tests_cant": "The rounding correction depends on whether any shifted-out bit of an unbounded magnitude is set.", "anchors": ["src/shift_ops.rs: Shl/Shr for IBig", "src/bits.rs: are_low_bits_nonzero"]}
{"id": "C13", "title": "UBig bitwise operators act bit by bit", "statement": "For all UBig a, b and every bit position i: bit i of a&b, a|b, a^b and a.and_not(b) is the corresponding boolean function of bit i of a and of b.", "quantifier": "all pairs of UBig values, all bit positions, all ownership forms", "why_tests_cant": "Operands of different lengths are truncated or extended differently per operator and per ownership form.", "anchors": ["src/bits.rs: BitAnd/BitOr/BitXor/AndNot for UBig"]}
{"id": "C14", "title": "IBig bitwise operators act on two's complement", "statement": "For all IBig a, b and every bit position i: bit i of the infinite two's complement of !a, a&b, a|b, a^b, a.and_not(b) is the boolean function of the bits of a and b. The only other outcome is the panic 'number too large', exactly when the result exceeds the size limit.", "quantifier": "all pairs of IBig values, all sign combinations, all bit positions", "why_tests_cant": "Sign-magnitude storage requires sixteen separate rewriting identities through !x = -x-1.", "anchors": ["src/bits.rs: Not/BitAnd/BitOr/BitXor/AndNot for IBig"]}
{"id": "C15", "title": "Single-bit access", "statement": "For all UBig a and positions n: bit(n) is bit n of a; after set_bit(n) exactly bit n is set and all other bits are unchanged; after clear_bit(n) exactly bit n is cleared and all other bits are unchanged.", "quantifier": "all UBig values and all bit positions, including positions beyond the current length", "why_tests_cant": "Positions beyond the stored length take separate paths (one of which the code gets wrong for single-word numbers).", "anchors": ["src/bits.rs: UBig::bit, set_bit, clear_bit, with_bit_large, without_bit_large"]}
{"id": "C16", "title": "Bit counting functions", "statement": "For all UBig a: trailing_zeros is None iff a = 0 and otherwise the largest k with 2^k | a; bit_len is the least n with a < 2^n; is_power_of_two iff a = 2^k for some k; next_power_of_two is the least power of two >= a. IBig trailing_zeros agrees with its magnitude.", "quantifier": "all UBig/IBig values", "why_tests_cant": "Carry out of the top word and all-zero low words at every length.", "anchors": ["src/bits.rs: trailing_zeros, bit_len, is_power_of_two, next_power_of_two_large"]}
{"id": "C17", "title": "Byte conversions round-trip", "statement": "from_le_bytes/from_be_bytes return the number the byte string denotes, for every byte string not longer than the largest buffer (longer strings panic 'number too large'); to_le_bytes/to_be_bytes return the shortest byte string denoting the number; so from(to(x)) = x.", "quantifier": "all byte strings and all UBig values", "why_tests_cant": "Byte strings of any length, not multiples of the word size, with leading zeros.", "anchors": ["src/convert.rs: from_le_bytes, from_be_bytes, to_le_bytes, to_be_bytes", "src/primitive.rs: word_from_le_bytes_partial, word_from_be_bytes_partial"]}
{"id": "C18", "title": "Primitive integer conversions are exact or fail", "statement": "Converting any primitive integer to UBig/IBig preserves its value (negative to UBig is an error); converting UBig/IBig to a primitive type succeeds exactly when the value is in the type's range and then preserves it, for signed and unsigned types of every width.", "quantifier": "all values, all primitive widths relative to the word size", "why_tests_cant": "Range boundaries at 2^n and -2^(n-1) for types narrower, equal to and wider than the word.", "anchors": ["src/convert.rs: from_unsigned, from_signed, try_to_unsigned, try_to_signed, unsigned_from_words", "src/primitive.rs: to_sign_magnitude, try_from_sign_magnitude"]}
{"id": "C19", "title": "Float conversion rounds to nearest even", "statement": "to_f32 and to_f64 return the IEEE value nearest to the integer, ties to even, and infinity exactly when the integer is at or beyond the overflow threshold; negative IBig gives the negated float.", "quantifier": "all UBig/IBig values", "why_tests_cant": "Ties and sticky bits arbitrarily far below the mantissa, mantissa overflow into the exponent, exponent overflow into infinity.", "anchors": ["src/convert.rs: to_f32, to_f32_slow, to_f64, to_f64_slow, round_to_even_adjustment"]}
{"id": "C20", "title": "Parsing accepts exactly the numerals and returns their value", "statement": "from_str_radix(s, r), for every string s and radix 2..=36: with an optional '+' (or '-' for IBig), empty digits give NoDigits, any character that is not a digit of the radix (either letter case) gives InvalidDigit (unless the text is so long, beyond the size limit, that the preparation for a number of that length already panics: exactly which lengths is part of the claim), otherwise the result is the positional value of the digits.", "quantifier": "all strings of any length, all radixes 2..=36", "why_tests_cant": "Three length-dependent algorithms (word, chunk, divide and conquer), bit-packing for power-of-two radixes, leading zeros.", "anchors": ["src/parse/mod.rs", "src/parse/power_two.rs", "src/parse/non_power_two.rs", "src/radix.rs: digit_from_utf8_byte, radix_info"]}
{"id": "C21", "title": "Formatting prints the canonical numeral", "statement": "For every UBig/IBig and radix 2..=36 the default format prints '-' iff negative followed by the unique digit string without superfluous leading zeros (and '0' for zero) whose positional value is the magnitude, in the requested letter case.", "quantifier": "all values of any length, all radixes, both letter cases", "why_tests_cant": "Width prediction, zero-padding of inner groups, three length-dependent algorithms, divide-and-conquer with cached radix powers.", "anchors": ["src/fmt/mod.rs", "src/fmt/power_two.rs", "src/fmt/non_power_two.rs", "src/fmt/digit_writer.rs", "src/arch/generic/digits.rs"]}
{"id": "C22", "title": "Print then parse is the identity", "statement": "For every UBig/IBig x and radix r in 2..=36, parsing the text printed for x in radix r (either case) returns x.", "quantifier": "all values, all radixes, both letter cases", "why_tests_cant": "Composition of two multi-algorithm code paths at every length.", "anchors": ["src/fmt/mod.rs", "src/parse/mod.rs"]}
{"id": "C23", "title": "Formatting honours width, alignment, sign and prefix flags", "statement": "For every value and every combination of width, fill, alignment, '+', '#', '0' flags: the output is the sign, prefix and digits, padded to at least the requested width: zero padding goes between prefix and digits, otherwise fill goes left/right/both sides (centre: floor half on the left), and nothing is truncated.", "quantifier": "all values, all widths, all flag combinations", "why_tests_cant": "The width computed in advance must equal the number of digits later written by a different routine.", "anchors": ["src/fmt/mod.rs: format_prepared"]}
{"id": "C24", "title": "gcd is the greatest common divisor", "statement": "For all UBig a, b not both zero gcd(a, b) divides both and every common divisor divides it; gcd(0,0) panics; IBig gcd ignores signs.", "quantifier": "all pairs of values", "why_tests_cant": "Termination and invariant of the binary loop with shifts for unbounded operands.", "anchors": ["src/gcd.rs: UBig::gcd, IBig::gcd"]}
{"id": "C25", "title": "Extended gcd returns bounded Bezout coefficients", "statement": "For all UBig/IBig a, b not both zero extended_gcd returns (g, x, y) with g = gcd(a, b), x*a + y*b = g, |x| <= max(|b|, 1) and |y| <= max(|a|, 1). Exception at the size limit: intermediate values can be twice the larger argument, and if that exceeds the size limit the call may panic with 'number too large' (it does for the two largest numbers, and never does if both arguments are even).", "quantifier": "all pairs of values", "why_tests_cant": "Coefficient invariants through subtract-and-halve iterations; bounds hold only with the parity corrections.", "anchors": ["src/gcd.rs: UBig::extended_gcd, IBig::extended_gcd"]}
{"id": "C26", "title": "pow is exponentiation", "statement": "For all UBig/IBig a and exponent n, a.pow(n) is a^n (0^0 = 1), with negative sign iff a < 0 and n is odd. The only other outcome is the panic 'number too large', exactly when the result exceeds the size limit.", "quantifier": "all bases and exponents", "why_tests_cant": "Square-and-multiply over the exponent's bits with special cases for small bases.", "anchors": ["src/pow.rs"]}
{"id": "C27", "title": "Modular arithmetic is the ring Z/n", "statement": "For every modulus n > 0 and integers x, y: the residue of ring.from(x) is x mod n in [0, n); +, -, *, unary - on ring elements act on residues as the ring Z/n; equality of elements is equality of residues; modulus() returns n; n = 0 panics. Exceptions at the size limit: converting a number panics with 'number too large' if and only if the number, shifted left by the unused bits of the top word of a modulus of several words, exceeds the size limit; multiplication may panic with 'out of memory' if the square of the modulus exceeds the limit (this never happens with a 64-bit usize, nor with 16-bit words and a 32-bit usize; on every other build it happens in the ring of the largest number).", "quantifier": "all moduli of any length, all integers", "why_tests_cant": "Values are stored pre-shifted (normalised); reduction after multiplication uses the division algorithms; n of one word and n of many words are separate code.", "anchors": ["src/modular/modulo_ring.rs", "src/modular/convert.rs", "src/modular/add.rs", "src/modular/mul.rs", "src/modular/cmp.rs"]}
{"id": "C28", "title": "Modular inverse and division", "statement": "inverse(x) is Some exactly when gcd(x, n) = 1 and then x * inverse(x) = 1 in the ring; a / b is the unique c with c*b = a when b is invertible and panics otherwise. Exception at the size limit: the inverse may panic with 'number too large' if twice the modulus exceeds the limit (it does for the element n-1 of the largest modulus n), and division may run out of memory if the square of the modulus exceeds it.", "quantifier": "all moduli and residues", "why_tests_cant": "Relies on Bezout coefficients of unbounded numbers being reduced into range.", "anchors": ["src/modular/div.rs: inverse, Div"]}
{"id": "C29", "title": "Modular exponentiation", "statement": "x.pow(e) is x^e in the ring for every UBig exponent; pow_signed with negative exponent is the power of the inverse and panics iff x is not invertible. Exceptions at the size limit: as for the inverse, and the table of powers may exceed the address space if the modulus raised to six more than the bit length of the exponent exceeds the limit.", "quantifier": "all moduli, residues and exponents", "why_tests_cant": "Sliding-window exponentiation with a precomputed odd-power table; the window crosses word boundaries.", "anchors": ["src/modular/pow.rs"]}
{"id": "C30", "title": "Mixing elements of different rings panics", "statement": "Any binary operation or comparison on elements of two different rings panics, even if the moduli are equal; within the same ring addition, subtraction and comparison never panic, and no operation panics for mixing rings.", "quantifier": "all pairs of ring elements", "why_tests_cant": "A missed check silently mixes residues of different moduli.", "anchors": ["src/modular/modulo.rs: check_same_ring", "src/modular/cmp.rs", "src/modular/add.rs", "src/modular/mul.rs"]}
{"id": "C31", "title": "Serialization round-trips and is portable across word sizes", "statement": "Deserializing the serialized form of any UBig/IBig gives the same value, also when the reader uses a different word size from the writer and whether or not the sequence length is announced; the serialized form depends only on the value.", "quantifier": "all values, all pairs of word sizes 16/32/64", "why_tests_cant": "Padding of the last 64-bit element when the word is narrower; needs two builds at once.", "anchors": ["src/serde.rs"]}
{"id": "C32", "title": "Random sampling stays in range and is uniform", "statement": "gen_range / Uniform over [low, high) and [low, high] returns a value in the range for every generator behaviour, and every value of the range is produced by equally many of the generator's draw sequences; an empty range panics.", "quantifier": "all ranges and all generator outputs", "why_tests_cant": "Statistical tests cannot establish exact uniformity or range membership for all draws.", "anchors": ["src/rand.rs: try_fill_uniform, uniform, UniformUBig, UniformIBig"]}
{"id": "C33", "title": "Scratch memory is always sufficient", "statement": "No multiplication, division or modular operation ever panics with 'internal error: not enough memory allocated' or trips one of its internal assertions: the size computed up front covers every recursive allocation for every operand length.", "quantifier": "all operand lengths", "why_tests_cant": "The closed-form size bound must dominate a recursive consumption for every length; an off-by-one would show only at specific huge lengths.", "anchors": ["src/memory.rs", "src/mul/mod.rs: memory_requirement_exact", "src/mul/karatsuba.rs", "src/mul/toom_3.rs", "src/div/mod.rs: memory_requirement_exact", "src/modular/mul.rs: mul_memory_requirement"]}
{"id": "C34", "title": "Buffers never overflow and stay compact", "statement": "No operation ever pushes past a buffer's allocated capacity, however much capacity the standard library gives to a new vector; and if it gives exactly what is requested, every large number held by the user keeps spare capacity within the advertised compactness bound (a quarter of its length plus four words).", "quantifier": "all histories of operations, all amounts of extra capacity", "why_tests_cant": "Capacity depends on the whole history of a value through in-place reuse.", "anchors": ["src/buffer.rs: allocate, ensure_capacity, shrink, push, resizing_clone_from", "src/ubig.rs: From<Buffer>"]}
{"id": "C35", "title": "Clones are independent and equal", "statement": "clone and clone_from yield a value equal to the source whatever the destination held before, in canonical form and within the capacity bounds.", "quantifier": "all source/destination pairs", "why_tests_cant": "clone_from reuses the destination's buffer depending on both capacities.", "anchors": ["src/ubig.rs: Clone", "src/buffer.rs: resizing_clone_from", "src/ibig.rs: Clone"]}
{"id": "C36", "title": "Mixed arithmetic with primitives equals big-integer arithmetic", "statement": "a op p for UBig/IBig a and primitive p returns the same as converting p and using the big-integer operator; results typed as a primitive (remainders, UBig & unsigned) always fit, so those operators never panic except by zero division or negative UBig results.", "quantifier": "all values and all primitive values of every width", "why_tests_cant": "The unwrap of a narrowing conversion must be safe for all inputs including the most negative primitive.", "anchors": ["src/add_ops.rs", "src/mul_ops.rs", "src/div_ops.rs: rem_unsigned, rem_signed, rem_euclid_primitive", "src/bits.rs: bitand_unsigned"]}
{"id": "C37", "title": "Sign functions", "statement": "For all IBig a: -a, abs, unsigned_abs and signum have the mathematical value; -(-a) = a; is_positive/is_negative/is_zero agree with the sign.", "quantifier": "all IBig values", "why_tests_cant": "Zero must never acquire a negative sign on any path.", "anchors": ["src/sign.rs", "src/num_traits.rs"]}
{"id": "C38", "title": "Size limit is exact", "statement": "An operation whose mathematical result fits in the maximum bit length never panics with 'number too large', and one whose result does not fit always panics rather than wrapping or truncating (addition, multiplication, left shift, set_bit, pow).", "quantifier": "all operands near and beyond the size limit", "why_tests_cant": "Operands at the limit need gigabytes of memory; tests cannot reach them.", "anchors": ["src/ubig.rs: MAX_LEN, panic_number_too_large", "src/buffer.rs: MAX_CAPACITY, allocate", "src/mul_ops.rs", "src/shift_ops.rs", "src/bits.rs"]}
{"id": "C39", "title": "Any program over the API computes the integer result", "statement": "For every sequence of operations on big integers (results feeding later operations), either some step panics for one of the documented reasons, or every intermediate value equals the value computed over the mathematical integers and satisfies the canonical-form and capacity invariants.", "quantifier": "all finite operation histories from any starting values", "why_tests_cant": "Histories are unbounded; invariants must be preserved by every operation.", "anchors": ["src/ubig.rs", "src/ibig.rs", "src/add_ops.rs", "src/mul_ops.rs", "src/div_ops.rs", "src/bits.rs", "src/shift_ops.rs"]}
{"id": "C40", "title": "Word-size independence", "statement": "The observable result of every arithmetic operation is the same function of the operand values on builds with 16-, 32- and 64-bit words.", "quantifier": "all values, all word sizes", "why_tests_cant": "Requires comparing separate builds over all inputs.", "anchors": ["src/arch/", "src/primitive.rs"]}
{"id": "C41", "title": "Invalid radixes are rejected", "statement": "from_str_radix and in_radix panic exactly when the radix is outside 2..=36, for every input.", "quantifier": "all u32 radixes and all inputs", "why_tests_cant": "Universal over 2^32 radixes and all strings.", "anchors": ["src/radix.rs: check_radix_valid", "src/parse/mod.rs", "src/fmt/mod.rs: in_radix"]}
{"id": "C42", "title": "Radix prefixes in literals", "statement": "from_str_with_radix_prefix reads 0b/0o/0x (after an optional sign) as radix 2/8/16 and everything else as decimal, returning the value of the remaining digits, so printing with '#' in binary, octal or hexadecimal and reading back is the identity.", "quantifier": "all strings; all values", "why_tests_cant": "Composition over all values and string shapes.", "anchors": ["src/parse/mod.rs: from_str_with_radix_prefix", "src/fmt/mod.rs"]}
{"id": "C43", "title": "Positive difference (num_traits::Signed::abs_sub)", "statement": "For all IBig a, b the num-traits contract for abs_sub holds: the result is a - b if a > b and 0 otherwise.", "quantifier": "all pairs of IBig values", "why_tests_cant": "The contract is violated on half of the domain; only a stated contract (not the implementation's own tests) reveals it.", "anchors": ["src/num_traits.rs: abs_sub"]}
{"id": "C44", "title": "Constant-divisor division is exact", "statement": "Digit extraction when printing divides by the radix and by powers of the radix with precomputed reciprocals; for every divisor and every dividend in range the quotient and remainder are exact.", "quantifier": "all divisors and dividends of the word size", "why_tests_cant": "2^128 divisor/dividend pairs on 64-bit builds.", "anchors": ["src/fast_divide.rs: FastDivideSmall, FastDivideNormalized", "src/radix.rs: RadixInfo"]}
{"id": "C45", "title": "Rings and their elements print as 'mod n' and 'r (mod n)'", "statement": "Formatting a ModuloRing with any of Display, Debug, Binary, Octal, LowerHex, UpperHex and any width, fill, alignment, sign, # and 0 flags prints 'mod ' followed by the modulus exactly as a number prints with the same trait and flags; formatting a Modulo prints its residue, ' (mod ', the modulus and ')', again each number exactly as it prints on its own. The text does not depend on whether the modulus fits in one word.", "quantifier": "every modulus n >= 1 of any length, every residue, every formatting trait, every combination of flags, every word size and endianness", "why_tests_cant": "The small and large representations go through different formatters (core's for machine words, the crate's own for long numbers) and every flag combination must agree between them for unboundedly many values.", "anchors": ["src/modular/fmt.rs: impl_fmt!", "src/modular/convert.rs: residue, modulus", "src/fmt/mod.rs: format_prepared"]}
{"id": "C46", "title": "The literal macros denote the number written", "statement": "ubig!(token), ubig!(token base R), ubig!(literal) and the ibig! forms with an optional minus sign produce exactly the number whose digits are written: one leading underscore is ignored, 0b/0o/0x prefixes are understood when no base is given, and the token is read in radix R when one is. A token that is not a number in its radix, or a radix outside 2..=36, panics; a value beyond the size limit panics with 'number too large'.", "quantifier": "every token text of any length, every radix, both signs, every u128 literal, every word size", "why_tests_cant": "There are infinitely many tokens; the value must be right for every number of digits, including those that cross word and chunk boundaries.", "anchors": ["src/macros.rs: ubig!, ibig!", "src/parse/mod.rs: from_str_radix, from_str_with_radix_prefix"]}
{"id": "C47", "title": "The size limit is consistent with the transform tables", "statement": "On every build, the three table moduli are distinct primes of the form k*2^MAX_ORDER+1 that fit in a word, entry i of the table of roots has multiplicative order exactly 2^i modulo each prime and the entries of the inverse table are the inverses, the tables are computed at compile time without a panic, and the documented guarantee behind the maximum length holds: every product that fits in the maximum length fits in the largest transform, and its coefficients are below the product of the primes.", "quantifier": "all word sizes, all sizes of usize, all three primes, all orders up to MAX_ORDER", "why_tests_cant": "Primality and exact multiplicative order are statements about all divisors and all smaller exponents; the unit tests only check ROOTS[0] and ROOTS[1].", "anchors": ["src/mul/ntt.rs: Prime, FIELDS, RingElement, ROOTS, INVERSE_ROOTS, generate_roots", "src/arch/generic_64_bit/ntt.rs: MAX_ORDER, PRIMES", "src/ubig.rs: MAX_LEN"]}
{"id": "C48", "title": "Panics leave every number valid; a program that catches them goes on correctly", "statement": "A program that catches panics (catch_unwind) and goes on sees the same values and catches the same panics, all of them documented, as the same program over mathematical integers. After a caught panic a variable modified in place by the operation that panicked (op=, set_bit, clear_bit) is zero, every other variable is unchanged, and every variable still satisfies all invariants of its type.", "quantifier": "For all sequences of blocks of operations, all initial values, all panics at any operation, all word sizes and endianness.", "why_tests_cant": "The state left behind depends on where an operation panics; unit tests only check that a single call panics (should_panic) and never look at the operands afterwards, let alone continue for arbitrary histories.", "anchors": ["src/add_ops.rs: AddAssign, SubAssign", "src/mul_ops.rs: MulAssign", "src/div_ops.rs: DivAssign, RemAssign", "src/bits.rs: UBig::set_bit, UBig::clear_bit, BitAndAssign, BitOrAssign, BitXorAssign", "src/shift_ops.rs: ShlAssign, ShrAssign"]}
{"id": "C49", "title": "Programs with modular rings compute in Z/n", "statement": "A program that creates rings, converts numbers and primitives into them, adds, subtracts, multiplies, divides, inverts, raises to powers, clones, compares, prints, and takes residues and moduli back into numbers sees the same values and panics with the same panic as the same program over mathematical integers and the rings Z/n. Elements of different ring objects never mix, even for equal moduli. The result depends neither on the word size nor on where the rings are in memory. A program stops with 'number too large' or exhausted memory only at an operation near the size limit.", "quantifier": "For all sequences of operations on any number of variables, all initial numbers, all addresses of rings, all word sizes and endianness.", "why_tests_cant": "The normalised (shifted) representation and the ring reference are carried from operation to operation; only a statement about all histories shows that no sequence leaves the range 0..n, mixes rings or depends on the word size.", "anchors": ["src/modular/modulo_ring.rs: ModuloRing", "src/modular/modulo.rs: Modulo, Clone", "src/modular/convert.rs: ModuloRing::from, Modulo::residue", "src/modular/add.rs", "src/modular/mul.rs", "src/modular/div.rs", "src/modular/pow.rs: Modulo::pow, Modulo::pow_signed", "src/modular/cmp.rs", "src/modular/fmt.rs"]}
{"id": "C50", "title": "Scratch memory: no undefined behaviour, no lost writes", "statement": "The unsafe code that gives multiplication, division and modular arithmetic their temporary memory never has undefined behaviour: no access outside the allocated block, no unaligned or null pointer, no uninitialised word, no two live slices that overlap, no allocation of size zero, and memory is given back once with the layout it was requested with. A word read from a temporary slice is the word last written to it. Running out of memory is a panic.", "quantifier": "all histories of allocations, releases, writes and reads on the scratch memory; all word sizes, alignments and byte orders; all allocators that keep the contract of the global allocator; all previous contents of memory", "why_tests_cant": "undefined behaviour need not be visible in a test; it depends on the addresses the allocator returns and on the order of nested allocations", "anchors": ["src/memory.rs MemoryAllocation::new, memory, drop", "src/memory.rs Memory::allocate_slice_fill, allocate_slice_copy, allocate_slice_copy_fill, try_find_memory_for_slice"]}
{"id": "C51", "title": "Requested scratch memory", "statement": "The memory layout that multiplication, division, modular multiplication and modular power compute before they start is exactly the memory those algorithms were shown to need; computing it does not overflow, and when it cannot be allocated the operation panics with out of memory.", "quantifier": "all operand lengths a number can have; all word sizes, address sizes and alignments; both size limits of core::alloc::Layout", "why_tests_cant": "the formulas matter at operand lengths close to the address space, which no test can allocate", "anchors": ["src/mul/mod.rs memory_requirement_exact", "src/mul/karatsuba.rs, src/mul/toom_3.rs memory_requirement_up_to", "src/div/mod.rs memory_requirement_exact", "src/modular/mul.rs mul_memory_requirement", "src/modular/pow.rs pow_nontrivial", "src/memory.rs array_layout, add_layout, max_layout, zero_layout"]}
{"id": "C52", "title": "Architecture-specific arithmetic", "statement": "Whichever architecture module is selected (x86, x86-64 or generic with 16, 32 or 64 bits), addition with carry and subtraction with borrow of machine words give the exact sum or difference and the exact carry or borrow, so results do not depend on the architecture. Every combination of forced word size, target architecture and pointer width selects a word size that is supported, and a forced word size is respected.", "quantifier": "all words, both carries, all architectures and configuration options", "why_tests_cant": "tests run on one architecture; the other modules are not even compiled there", "anchors": ["src/arch/mod.rs", "src/arch/x86/add.rs", "src/arch/x86_64/add.rs", "src/arch/generic/add.rs add_with_carry, sub_with_borrow"]}
{"id": "C53", "title": "Printing into a sink that fails", "statement": "When a number, a ring or a ring element is printed into a sink (a fmt::Write) that reports an error, printing returns that error at once: nothing is passed to the sink after the failed call, and what was passed before is a prefix of the correct text. If the sink reports no error, printing returns Ok and exactly the correct text has been passed. Printing never panics.", "quantifier": "all numbers, radixes, formatting traits and flags; all sinks, failing at any call, also depending on what was written before", "why_tests_cant": "the point of failure can be any of the many places where output is flushed, filled or padded; tests print to strings, which do not fail", "anchors": ["src/fmt/mod.rs format_prepared", "src/fmt/digit_writer.rs DigitWriter::write, flush", "src/fmt/power_two.rs", "src/fmt/non_power_two.rs write_big_chunk, write_chunk", "src/modular/fmt.rs"]}
{"id": "C54", "title": "Serialization with a data format that reports errors", "statement": "When the data format reports an error at any point of serializing or deserializing, that error is returned unchanged and at once: no further call is made, no number is produced and there is no panic. Without errors, serializing passes the announced length and then exactly the 64-bit digits of the number, in order.", "quantifier": "all numbers; all data formats, failing at any call with any error; all announced lengths that are not too small", "why_tests_cant": "the position of the error in the sequence is arbitrary; usual formats used in tests do not fail", "anchors": ["src/serde.rs"]}
{"id": "C55", "title": "Recursion depth", "statement": "Long operands cannot exhaust the stack: the calls of the recursive algorithms nest at most logarithmically deep in the length of the operands - at most 2L+4 calls for a multiplication whose shorter factor has a length of L bits, one more than the number of halvings for a division, and at most as many calls as the length of the text or number has bits for parsing and printing. In particular never more than 132 nested calls of the same algorithm.", "quantifier": "all operands of all lengths, balanced or not; all word and address sizes", "why_tests_cant": "the depth for unbalanced multiplication follows Euclid's algorithm on the two lengths; tests try few pairs of lengths and cannot try the longest operands", "anchors": ["src/mul/mod.rs add_signed_mul, add_signed_mul_same_len", "src/mul/helpers.rs add_signed_mul_split_into_chunks", "src/div/divide_conquer.rs div_rem_in_place_same_len, div_rem_in_place_small_quotient", "src/parse/non_power_two.rs parse_large_divide_conquer", "src/fmt/non_power_two.rs write_big_chunk"]}
{"id": "C56", "title": "The factorial example prints the factorial", "statement": "The example program prints the number n in decimal, `! = `, and the exact value of n! in hexadecimal with the prefix `0x`, for every n whose factorial fits in a number (with the constant n of the example in particular), and panics with `number too large` for the others; the product tree `product(a, b)` returns a·(a+1)···(b-1); the recursion is at most logarithmically deep in b - a.", "quantifier": "every n (u32) and every range a < b whose product fits below the size limit, every word size and build", "why_tests_cant": "It is a claim about all n; the example is only ever run for a fixed n, and its correctness composes multiplication, conversion and printing on operands of all sizes.", "anchors": ["examples/factorial.rs: main, factorial, product", "src/mul_ops.rs", "src/fmt/mod.rs: Display"]}
{"id": "C57", "title": "The development tool finds all and only the NTT primes and their least roots", "statement": "`is_prime` of the development tool answers true only for primes and false only for composite numbers, whatever random numbers it draws, and it answers as soon as some draw decides; for every prime there is a draw that does; `find_root` returns the least element of order 2^order; for a word size, the tool finds the largest order for which there are three primes k·2^order + 1 below 2^bits, and exactly all these primes, in increasing order, with their least roots; the last three are the very tables in src/arch/*/ntt.rs.", "quantifier": "every candidate p = mult·2^order + 1 with 16, 32 or 64 bits, every sequence of random draws, every word size of the build that runs the tool", "why_tests_cant": "The tool is randomized, so a test sees one sequence of draws; that no prime is missed and no composite is accepted is a statement about all candidates and all draws.", "anchors": ["dev-tools/src/bin/ntt_primes.rs: is_prime, find_root, print_primes, check_range", "src/arch/generic_16_bit/ntt.rs", "src/arch/generic_32_bit/ntt.rs", "src/arch/generic_64_bit/ntt.rs"]}
{"id": "C58", "title": "Debug output is the same on every build, also with {:x?} and {:X?}", "statement": "What `{:?}`, `{:x?}` and `{:X?}` print for a number, a ring or an element depends only on its value (and on the modulus), not on the word size. (Violated: `{:x?}` of a ring or element prints hexadecimal if the modulus fits in a word, and decimal otherwise; so the modulus 100000 prints as `mod 186a0` with 64-bit words and as `mod 100000` with 16-bit words. Numbers always print in decimal.)", "quantifier": "every number, ring and element, every combination of format flags, every pair of builds", "why_tests_cant": "A test runs on one word size and with a few moduli; the dependence on the build shows only when builds are compared.", "anchors": ["src/modular/fmt.rs: Debug for ModuloRing, Modulo", "src/fmt/mod.rs: Debug for UBig, IBig"]}
{"id": "C59", "title": "The crate compiles for every target, and the size limit is the documented one", "statement": "For every target architecture, every forced word size and every size of usize, all constants (the size limit, the capacity limit, the tables of radixes and of the number-theoretic transform, the buffer sizes) are evaluated by the compiler without an overflow or a panic, and every static assertion holds. `UBig::MAX_BIT_LEN` is the largest multiple of two words for which bit counts fit in usize and products fit in the largest transform; 16 times the maximal length does not overflow.", "quantifier": "every target architecture, every setting of force_bits, 16-bit, 32-bit and 64-bit usize", "why_tests_cant": "A test runs on the one target it was compiled for; a constant that overflows or an assertion that fails on another combination of word size and usize shows only when somebody compiles for it.", "anchors": ["src/ubig.rs: MAX_LEN, MAX_BIT_LEN", "src/buffer.rs: MAX_CAPACITY", "src/arch/mod.rs", "src/radix.rs: RADIX_INFO_TABLE", "src/mul/ntt.rs", "src/serde.rs, src/mul_ops.rs, src/mul/mod.rs, src/div/divide_conquer.rs, src/fmt/non_power_two.rs: const_assert"]}
{"id": "C60", "title": "Multiplication takes O(n^1.47) time", "statement": "Multiplying numbers of n and m machine words, in every combination of owned and borrowed operands, UBig or IBig, takes at most 27·(n+m)·min(n,m)^0.47 steps, hence at most 54·n^1.47 steps for two numbers of at most n words, where a step is one iteration of a loop over words or one operation of constant time. This is the bound O(n^1.47) promised in the change log.", "quantifier": "all pairs of numbers whose product is within the size limit, all lengths, all four combinations of ownership, every word size", "why_tests_cant": "A benchmark measures a few lengths on one machine; the bound is about all lengths, all pairs of lengths and all contents of the words (carries can run through the whole number).", "anchors": ["CHANGELOG.md: O(n^1.47)", "src/mul_ops.rs: impl Mul", "src/mul/mod.rs: add_signed_mul, MAX_LEN_SIMPLE, MAX_LEN_KARATSUBA", "src/mul/simple.rs, src/mul/karatsuba.rs, src/mul/toom_3.rs, src/mul/helpers.rs", "src/add.rs"]}
{"id": "C61", "title": "Division takes O(n^1.47) time", "statement": "Dividing a number of n machine words by a nonzero number of m words with `/`, `%` or `div_rem`, in every combination of owned and borrowed operands, UBig or IBig, takes at most 210·n·min(n,m)^0.47 steps, hence at most 210·n^1.47 steps whatever the divisor, where a step is one iteration of a loop over words or one operation of constant time. Euclidean division of UBig has the same bound; Euclidean division of IBig takes at most 29n + 14m + 14 steps more. This is the bound O(n^1.47) promised in the change log.", "quantifier": "all dividends and nonzero divisors, all pairs of lengths, all four combinations of ownership, every word size", "why_tests_cant": "The loops that correct an estimated quotient run a number of times that depends on the contents of the words, and a benchmark sees a few lengths and contents; the bound is about all of them.", "anchors": ["CHANGELOG.md: O(n^1.47)", "src/div_ops.rs: impl Div, Rem, DivRem, DivEuclid, RemEuclid, DivRemEuclid", "src/div/mod.rs: div_rem_in_place, div_by_word, rem_by_word", "src/div/simple.rs: div_rem_in_place", "src/div/divide_conquer.rs: div_rem_in_place_same_len, div_rem_in_place_small_quotient"]}
{"id": "C62", "title": "Addition and subtraction take linear time", "statement": "Adding or subtracting numbers of n and m machine words, in every combination of owned and borrowed operands, UBig or IBig, takes at most 13·(n+m) steps, where a step is one iteration of a loop over words or one operation of constant time.", "quantifier": "all pairs of numbers whose sum or difference exists and is within the size limit, all lengths, all four combinations of ownership, all signs, every word size", "why_tests_cant": "Carries and borrows run through a number of words that depends on the contents, and buffers are reused or copied depending on capacities and ownership; the bound is about all of them.", "anchors": ["src/add_ops.rs: impl Add, Sub", "src/add.rs: add_in_place, sub_in_place, sub_in_place_with_sign, add_same_len_in_place", "src/buffer.rs: push, extend, ensure_capacity"]}
{"id": "C63", "title": "Exponentiation takes O((n·e)^1.47) time", "statement": "Raising a UBig or IBig of n machine words to the power e takes at most 54·(n·e)^1.47 + 108·n·e·n^0.47 steps, hence at most 162·(n·e)^1.47, where n·e bounds the number of words of the result: the cost of the repeated squarings is a constant factor times the cost of one multiplication of the final size.", "quantifier": "all numbers whose power is within the size limit, all exponents, all signs, every word size", "why_tests_cant": "The bound is on the growth of the running time over all bases and exponents; the sequence of squarings and multiplications depends on every bit of the exponent.", "anchors": ["src/pow.rs: UBig::pow, IBig::pow", "src/bits.rs: set_bit"]}
{"id": "C64", "title": "Parsing takes O(n^1.47) time", "statement": "Reading a text of n bytes, with from_str, from_str_radix or from_str_with_radix_prefix, for UBig and IBig, in any radix, takes at most 200·n^1.47 steps (n ≥ 1), whether the result is a number or a parse error. More exactly, at most 9·n + 175·N^1.47 + 14 steps where N is the number of machine words in which n digits are sure to fit. In the radixes 2, 4, 8, 16 and 32 the time is linear, at most 9·n + 14 steps.", "quantifier": "all byte strings up to isize::MAX long (any text for power-of-two radixes) whose parsing does not exceed the size limit, all radixes 2..=36, every word size", "why_tests_cant": "The bound is on the growth of the running time over all lengths; the recursion splits the text at lengths that tests do not all reach, and errors can occur at every place in the text.", "anchors": ["src/parse/mod.rs: from_str_radix, from_str_with_radix_prefix, from_str_radix_no_sign", "src/parse/non_power_two.rs: parse_word, parse_chunk, parse_large, parse_large_divide_conquer", "src/parse/power_two.rs: parse_word, parse_large", "CHANGELOG.md: parse in O(n^1.47)"]}
{"id": "C65", "title": "Formatting takes O(n^1.47) time", "statement": "Printing a UBig or IBig of n machine words (n ≥ 1) with to_string, or with {:?}, {:b}, {:o}, {:x}, {:X} without flags, takes at most 12000·n^1.47 steps. With any flags and in any radix, including in_radix, it takes at most 9·L + 4700·n^1.47 + 6301 steps, where L is the number of characters printed. In the radixes 2, 4, 8, 16 and 32 the time is linear in the length of the text, at most 9·L + 33 steps.", "quantifier": "all numbers, all radixes 2..=36, all formatting flags, every word size", "why_tests_cant": "The bound is on the growth of the running time over all lengths; the recursion divides by a table of powers whose size depends on the number, and a test sees only a few sizes.", "anchors": ["src/fmt/mod.rs: InRadixFull::fmt, format_prepared, PreparedForFormatting", "src/fmt/non_power_two.rs: PreparedWord, PreparedMedium, PreparedLarge, write_big_chunk, write_chunk", "src/fmt/power_two.rs: PreparedWord, PreparedLarge", "src/fmt/digit_writer.rs: DigitWriter", "CHANGELOG.md: to_string in O(n^1.47)"]}
{"id": "C66", "title": "Overflow checks make no difference", "statement": "Builds with overflow checks (debug) and without (release) return the same results: no arithmetic operation on words, double words or lengths inside the crate exceeds its type, other than where the code asks for wrapping or checked arithmetic.", "quantifier": "all words, all double-word intermediate values, all lengths up to the capacity limit", "why_tests_cant": "Tests run with overflow checks on sample operands; the extreme words and lengths are a vanishing part of the inputs, and release builds would wrap silently.", "anchors": ["src/mul/mod.rs", "src/shift.rs", "src/fast_divide.rs", "src/div/simple.rs", "src/modular/mul.rs", "src/mul/karatsuba.rs", "src/mul/toom_3.rs", "src/buffer.rs"]}
{"id": "C67", "title": "Shifts, bitwise operators, trailing_zeros and comparisons take linear time", "statement": "For UBigs of n and m machine words (n, m ≥ 1): a << s takes at most 4n + 3⌊s/W⌋ + 29 steps, where W is the word size in bits; a >> s at most 4n + 33; each of & | ^ and and-not at most 8(n+m); trailing_zeros at most n + 4; a comparison at most min(n,m) + 1. For IBigs: << as for UBig, >> at most 18n + 47, bitwise operators at most 56(n+m), ! at most 13(n+1). This holds whether operands are passed by value or by reference.", "quantifier": "all numbers, all shift amounts, all ownership variants, every word size", "why_tests_cant": "The bound is on the growth of the running time over all lengths; a copy that is too long or a loop over the wrong operand gives the same results.", "anchors": ["src/shift_ops.rs", "src/bits.rs: BitAnd, BitOr, BitXor, and_not, Not, trailing_zeros", "src/shift.rs", "src/cmp.rs"]}
{"id": "C68", "title": "gcd is quadratic in the shorter number, extended_gcd takes time proportional to the product of the lengths", "statement": "For numbers of n and m machine words of W bits (n, m ≥ 1): gcd takes at most 84·min(n,m)²·W + 210·max(n,m)·min(n,m)^0.47 + 55(n+m) steps; extended_gcd takes at most 528·(n+m)·min(n,m)·W steps.", "quantifier": "all pairs of numbers (UBig and IBig), every word size", "why_tests_cant": "The number of rounds of the binary algorithm depends on the bits of both numbers; an adversarial pair is not found by testing, and a loop that makes progress too slowly still returns the right result.", "anchors": ["src/gcd.rs: UBig::gcd, UBig::extended_gcd, IBig::gcd, IBig::extended_gcd"]}
{"id": "C69", "title": "Modular arithmetic: linear addition, O(n^1.47) multiplication, O(L n^1.47) powers, quadratic inverses", "statement": "In a ring whose modulus has n machine words of W bits (n ≥ 1): creating the ring takes at most 2n + 7 steps; reading the modulus or a residue at most 4n + 6; negation at most 4n + 8; addition and subtraction at most 5n + 10; bringing in a number of m words at most 195(m+1)·n^0.47 + 5m + 7n + 49; multiplication at most 430·n^1.47; a power with an exponent of L ≥ 1 bits at most 1250·L·n^1.47; an inverse at most 1115·n²·W; division at most 1145·n²·W; pow_signed at most the sum of an inverse and a power.", "quantifier": "all moduli, elements, exponents and word sizes", "why_tests_cant": "The window length, the table of powers and the multiplication and division algorithms change with the sizes; a power that does one multiplication too many in every window still returns the right result.", "anchors": ["src/modular/modulo_ring.rs: ModuloRing::new", "src/modular/convert.rs: ModuloRing::from, ModuloRing::modulus, Modulo::residue", "src/modular/add.rs, src/modular/mul.rs, src/modular/div.rs, src/modular/pow.rs: operators, Modulo::inverse, Modulo::pow, Modulo::pow_signed"]}
{"id": "C70", "title": "The identities of arithmetic hold for whatever expressions of the crate's operators compute", "statement": "Take any expression built from UBig and IBig variables and primitive constants with + - * / %, div_euclid, rem_euclid, & | ^ !, and_not, <<, >>, pow, gcd, unary -, abs, signum and IBig::from(UBig), each operand by value or by reference. If evaluating it does not panic, the result is the expression's value in the unlimited integers; if it panics for another reason than size, the expression has no value there (division by zero, negative UBig, gcd(0, 0)); if all its parts have values within the size limit it does not panic. Passing operands by value or by reference changes neither the value nor the panic. Two expressions that are equal by an identity of integer arithmetic give results that ==, cmp and Hash do not tell apart: the laws of commutative (semi)rings, (x/y)*y + x%y == x, De Morgan's laws, !x == -x-1, x + y == (x|y) + (x&y), x << n == x * 2^n, (x << n) >> n == x, laws of powers and of gcd, and IBig::from of a UBig result equals the IBig operation. cmp is a total order agreeing with ==, and adding a number, multiplying by a positive number keep it, negation and multiplying by a negative number reverse it.", "quantifier": "all expressions, all values of the variables, all choices of ownership, every word size", "why_tests_cant": "The two sides of an identity run different code paths (different lengths, algorithms and buffers) on unboundedly many inputs and expression shapes; a law that fails only when an intermediate result changes its length is not found by sampling.", "anchors": ["src/add_ops.rs, src/mul_ops.rs, src/div_ops.rs, src/bits.rs, src/shift_ops.rs: operators of UBig and IBig", "src/pow.rs: pow", "src/gcd.rs: gcd", "src/sign.rs: Neg, Abs, signum", "src/cmp.rs: Ord", "src/convert.rs: IBig::from"]}
{"id": "C71", "title": "Caught panics in modular arithmetic leave every ring and element valid", "statement": "A program that uses UBig, IBig, ModuloRing and Modulo variables and catches panics (catch_unwind) around any of its blocks goes on correctly: after a panic every variable still holds a valid number, ring or element; an operation on rings or elements that panicked (different rings, no inverse, modulus zero, too little memory for scratch space), including +=, -= and *= which work in place, has left every variable as it was; and everything computed afterwards is what the mathematical program computes from there. Each caught panic is a documented one, or out of memory near the limits of a 32-bit or 16-bit build. clone_from never panics.", "quantifier": "all programs and splits into blocks, all initial values, all addresses of the rings, every word size", "why_tests_cant": "An operation through &mut that panics half-way may leave reduced and unreduced words mixed in the element; whether any panic can strike at such a point has to be shown for every operation, operand and history.", "anchors": ["src/modular/add.rs: AddAssign, SubAssign, ModuloLarge::add_in_place, sub_in_place", "src/modular/mul.rs: MulAssign, mul_normalized_in_place", "src/modular/modulo.rs: modify_normalized_value, set_raw, Clone::clone_from, check_same_ring", "src/modular/div.rs: DivAssign, Modulo::inverse", "src/modular/modulo_ring.rs: ModuloRing::new"]}
{"id": "C72", "title": "Float conversions keep order, are exact where possible and have half-ulp relative error", "statement": "If a <= b then a.to_f32() <= b.to_f32() and a.to_f64() <= b.to_f64() as numbers (infinities included). An integer with at most 24 (53) significant bits and magnitude below 2^128 (2^1024) converts to f32 (f64) exactly. Every integer of magnitude below the overflow threshold converts to a finite float whose relative error is at most 2^-24 (2^-53).", "quantifier": "all UBig/IBig values and pairs of values, both float types, every build", "why_tests_cant": "Order could be broken between two numbers that take different paths (one-word, double-word, slow) or round across a power of two; the pairs are infinitely many.", "anchors": ["src/convert.rs: to_f32, to_f32_slow, to_f64, to_f64_slow, round_to_even_adjustment"]}
{"id": "C73", "title": "Scratch memory is linear in the operands", "statement": "The temporary memory requested from the allocator is: for a multiplication whose shorter factor has n words nothing if n <= 24 and at most 4n + 13 log2 n words otherwise (2n + 2 log2 n up to 192 words); for a division by r words at most 2r + 13 log2 r words and at most four times the quotient's length plus a logarithm; for a multiplication in a ring with a modulus of n words at most 6n + 13 log2 n words; for a power with an exponent of L bits at most n*L/2 words more, for its table.", "quantifier": "all operand lengths, exponent lengths, word sizes, address sizes and alignments", "why_tests_cant": "Tests run out of memory long before the sizes are exhausted, and do not observe the requested layouts.", "anchors": ["src/mul/mod.rs: memory_requirement_exact", "src/mul/karatsuba.rs, src/mul/toom_3.rs: memory_requirement_up_to", "src/div/mod.rs, src/div/divide_conquer.rs: memory_requirement_exact", "src/modular/mul.rs: mul_memory_requirement", "src/modular/pow.rs: pow_nontrivial, choose_pow_window_len", "src/memory.rs: array_layout, add_layout, max_layout"]}
{"id": "C74", "title": "Interactive programs with all operations", "statement": "A program may use any sequence of operations on UBig, IBig, modular rings and elements, including extended_gcd, writing numbers to a data format and reading them or foreign data, and drawing random numbers; it may choose each next operation depending on everything it has seen so far (comparison results, texts, serialized data, which operation panicked), in any way; and it may catch panics and go on. Whatever it does and observes is something the mathematical program (over integers, residues, any Bezout coefficients within the documented bounds, any random number in the range) may do and observe, every variable ends with the mathematically correct value in canonical form, every panic is a documented one (or: empty range of rand, out of memory near the size limit, a variable that holds nothing), every number of a range can come out of a draw, and no operation gets stuck.", "quantifier": "all programs with any control flow, loops and unbounded length, all initial values, all random outcomes, all placements of rings in memory, every build", "why_tests_cant": "The set of programs, their reactions and random outcomes is unbounded; an invalid value left by one operation may only show up many operations later.", "anchors": ["src/gcd.rs: extended_gcd", "src/serde.rs: serialize, deserialize", "src/rand.rs: UniformUBig, UniformIBig", "all public operators and methods of UBig, IBig, ModuloRing, Modulo"]}
{"id": "C75", "title": "Interactive programs do not depend on the build", "statement": "Take an interactive program (C74) and two builds of the crate with different word sizes, address sizes, byte orders and placements of rings in memory, started with variables of the same values. Everything the program does and sees on one build (results, texts, serialized data, Bezout coefficients, random numbers, panics), as long as no limit of the build is reported, it can do and see on the other build, ending with the same values; or the other build reports 'number too large' or 'out of memory' at one of the operations, and up to there everything is the same.", "quantifier": "all programs with any control flow, all initial values, all pairs of builds", "why_tests_cant": "Tests run on one or two word sizes and a few programs; a difference may only show after many operations, or only for one outcome of a random draw.", "anchors": ["src/arch/*: Word", "src/gcd.rs: extended_gcd", "src/serde.rs", "src/rand.rs", "all public operators and methods of UBig, IBig, ModuloRing, Modulo"]}
{"id": "C76", "title": "Random numbers take few draws", "statement": "Drawing a random number from a range whose size has at most n words consumes on average at most n + 3 random words from the generator, whatever the size of the range: the rejected attempts together cost at most three draws on average. A range of one word takes exactly one draw.", "quantifier": "all ranges low..high and low..=high of UBig and IBig, every word size, every number of attempts", "why_tests_cant": "A bad rejection rate shows only for particular ranges (for example just above a power of the word size), and an average over all outcomes of the generator cannot be observed by sampling.", "anchors": ["src/rand.rs: uniform, uniform_large, try_fill_uniform, UniformUBig, UniformIBig"]}
{"id": "C77", "title": "Conversions and bit functions take constant or linear time", "statement": "Conversions between numbers and primitive integers, conversions to f32 and f64, bit and bit_len take a bounded number of steps however long the number is. from_le_bytes, from_be_bytes, to_le_bytes, to_be_bytes, set_bit, clear_bit, is_power_of_two and next_power_of_two take a number of steps linear in the number of words of the argument and of the result.", "quantifier": "all numbers, byte strings and bit positions, every primitive integer type, every word size", "why_tests_cant": "A hidden loop over all words, or a quadratic copy, shows only for long inputs and only as slowness; a test sees the same result.", "anchors": ["src/convert.rs: from_le_bytes, from_be_bytes, to_le_bytes, to_be_bytes, to_f32, to_f64, from_unsigned, try_to_unsigned, try_to_signed", "src/bits.rs: bit, set_bit, clear_bit, bit_len, is_power_of_two, next_power_of_two"]}
{"id": "C78", "title": "Successive random numbers are independent", "statement": "When a program draws UBigs or IBigs one after another from the same generator, choosing each range from the numbers it has drawn before (never an empty one), no draw panics, each number is in its range, and the probability of any sequence of numbers is the product of 1/(number of elements) over its ranges. In particular k numbers from one range of N elements take each of the N^k sequences with the same probability.", "quantifier": "all numbers of draws, all strategies for choosing ranges (half-open or inclusive) from earlier results, all sequences of values, all builds", "why_tests_cant": "Statistical tests look at a few moments of samples from a few ranges; dependence between successive results (for example through words left over from an earlier attempt) could be too subtle for them.", "anchors": ["src/rand.rs: UniformUBig::sample, UniformIBig::sample, UBig::uniform, try_fill_uniform"]}
{"id": "C79", "title": "Serialization takes linear time", "statement": "Serializing a UBig or IBig of n words takes at most 3n+2 steps; deserializing a sequence of n 64-bit elements takes at most n(5k+2)+35 steps, where k is the number of machine words in 64 bits, whether or not the format announces the length, and whether or not the sequence ends in zeros. Counting does not change the results.", "quantifier": "all numbers, all sequences of elements, all announced lengths, all builds", "why_tests_cant": "Running time for every input cannot be measured; a quadratic path (for example a buffer reallocated for every element) could hide in one of the four cases of the announced length.", "anchors": ["src/serde.rs: Serialize for UBig, UBigVisitor::visit_seq, push_word_64, len_64_to_max_len, Serialize for IBig, Deserialize for IBig"]}
{"id": "C80", "title": "Drawing a random number takes linear expected time", "statement": "Drawing a UBig or IBig from low..high or low..=high, where both ends have at most n words, takes at most 71n+140 steps on average, counting the construction of the distribution, all attempts, and the addition of the lower end. The bound holds for every range, also those for which an attempt fails half of the time. Counting does not change the distribution of the results.", "quantifier": "all ranges, half-open or inclusive, of both types, every limit on the number of attempts, all builds", "why_tests_cant": "The number of attempts is random and unbounded, and its distribution depends on the leading words of the range; a mean over all outcomes cannot be measured, and the bad ranges are rare.", "anchors": ["src/rand.rs: UniformUBig::new, new_inclusive, sample, UniformIBig::new, new_inclusive, sample, UBig::uniform, uniform_large, try_fill_uniform"]}
{"id": "C81", "title": "Accumulating many numbers takes linear time in total", "statement": "Executing x += y for each y of a sequence, where x has at most n words and each y at most m words, takes at most (28m+56) steps per addition plus 13n+16 steps once, however long the sum becomes: neither carries nor reallocations of the buffer make the total grow with the product of the length of the sum and the number of additions. In particular k times x += 1 takes at most 84k+13n+16 steps. The same holds for x -= y with (2m+9) steps per subtraction, as long as the result is not negative. The results are the sum and the difference. It does not hold for alternating x += 1 and x -= 1: each such pair can take n steps.", "quantifier": "all starting values, all finite sequences of addends passed by value or by reference, all sizes n and m, all builds, when vectors have exactly the requested capacity", "why_tests_cant": "A single addition may take time proportional to the length of x, because of a long carry or a full buffer; that such additions are rare enough in every sequence depends on the growth policy of the buffer and cannot be read off from any number of runs.", "anchors": ["src/add_ops.rs: AddAssign, SubAssign, UBig::add_large_word, add_large, sub_large_word, sub_large", "src/buffer.rs: Buffer::ensure_capacity, shrink, push_may_reallocate, default_capacity, max_compact_capacity, pop_leading_zeros", "src/add.rs: add_one_in_place, add_word_in_place, sub_one_in_place"]}
{"id": "C82", "title": "Sets of bits: setting and clearing many bits takes linear time in total", "statement": "Calling set_bit(i) for k positions i below the length of n words, in any order, on a number of at most n words takes at most 41k+30n+16 steps in total, however often the number has to grow; the growth of the buffer is geometric. Calling clear_bit for k positions on a number of n words takes at most 8k+13n+16 steps in total. Calling both in any order for k positions below the most significant word of a number of n+1 words takes at most 41k+13n+29 steps in total, and each bit ends up as the last operation on it left it.", "quantifier": "all numbers, all finite sequences of positions and operations, all sizes, all builds, when vectors have exactly the requested capacity", "why_tests_cant": "A single set_bit may copy the whole number; that this happens rarely enough in every sequence of calls depends on the capacities after each call.", "anchors": ["src/bits.rs: UBig::set_bit, with_bit_word_slow, with_bit_large, clear_bit, without_bit_large", "src/buffer.rs: Buffer::ensure_capacity, shrink, default_capacity, max_compact_capacity", "src/ubig.rs: From<Buffer> for UBig"]}
{"id": "C83", "title": "Exactly when modular arithmetic runs out of memory", "statement": "In a modular ring, whether multiplication, division by an invertible element or raising to a power panics because its scratch memory exceeds isize::MAX bytes depends only on the number of words of the modulus (and the number of bits of the exponent): it happens exactly if 2l words for the product, plus nothing, 2l + 2 ceil(log2 l) or 4l + 13 ceil(log2 l) words for the multiplication algorithm, plus l words for every power in the table of odd powers, are more than that. In all other cases the operation returns the right element.", "quantifier": "all builds, moduli, elements and exponents, including those near the size limit", "why_tests_cant": "The limit is reached only by moduli of a sizeable part of the address space, which no test can allocate, and depends on the build; the sizes that matter are spread over several modules.", "anchors": ["src/modular/mul.rs: ModuloRingLarge::mul_memory_requirement", "src/modular/pow.rs: ModuloLarge::pow_nontrivial, choose_pow_window_len", "src/modular/div.rs", "src/mul/mod.rs: memory_requirement_exact", "src/div/mod.rs: memory_requirement_exact", "src/memory.rs: MemoryAllocation::new"]}
{"id": "C84", "title": "Different functions of the API agree with each other", "statement": "Functions that answer the same question in different ways agree: bit_len is the length of the text in radix 2, one more than the position of the highest bit and the smallest width of an unsigned type that can hold the number, and the number of bytes is an eighth of it, rounded up; bit(n) is the lowest bit of the number shifted right by n, and set_bit(n) does what | with 1 << n does; trailing_zeros is the position of the lowest bit and shifting right that far and back changes nothing; a number is a power of two exactly if it is its own next_power_of_two, and exactly if bit_len = trailing_zeros + 1; ==, cmp, hashing, the bytes, the text in every radix and ^ agree about which numbers are equal; cmp, subtraction (panics exactly if the first is less), the order of the texts in every radix and the order of the big-endian bytes (shorter first, then lexicographic) agree about which is less, and for IBig the sign of the difference does; a % b is 0 exactly if gcd(a, b) == b; / and % are what div_rem returns; extended_gcd returns the gcd that gcd returns; gcd is symmetric; ring.from(a).residue() is a % n and the element has an inverse exactly if gcd(a, n) is 1; Display, Binary, Octal, LowerHex and UpperHex print what in_radix prints; the text of an IBig is the text of its unsigned_abs after a '-' exactly if is_negative.", "quantifier": "all numbers of any length, all radixes and letter cases, all bit positions, all ownership forms, all word sizes", "why_tests_cant": "each side is a different algorithm with its own thresholds on lengths and word boundaries; tests compare them on a few numbers, not for all", "anchors": ["src/bits.rs: bit_len, bit, set_bit, trailing_zeros, is_power_of_two, next_power_of_two, BitXor", "src/cmp.rs: Ord", "src/ubig.rs: UBig (derived Hash, PartialEq)", "src/convert.rs: to_le_bytes, to_be_bytes, TryFrom", "src/fmt/mod.rs: in_radix, Display, Binary, Octal, LowerHex, UpperHex", "src/add_ops.rs: Sub", "src/div_ops.rs: Div, Rem, DivRem", "src/gcd.rs: gcd, extended_gcd", "src/modular/convert.rs: ModuloRing::from, residue", "src/modular/div.rs: inverse", "src/sign.rs: unsigned_abs"]}
