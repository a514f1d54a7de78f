{
 "claims": [
  {
   "property": "C01",
   "status": "proved",
   "theorems": [
    "Ibig.C01_ubig_add"
   ],
   "note": "All four ownership forms, all builds; too-large panic exactly when the sum exceeds the limit."
  },
  {
   "property": "C02",
   "status": "proved",
   "theorems": [
    "Ibig.C02_ubig_sub"
   ],
   "note": "All four ownership forms."
  },
  {
   "property": "C03",
   "status": "proved",
   "theorems": [
    "Ibig.C03_ibig_add_sub"
   ],
   "note": "All four ownership forms of + and -."
  },
  {
   "property": "C04",
   "status": "proved",
   "theorems": [
    "Ibig.C04_mul"
   ],
   "note": "UBig and IBig, all ownership forms, all algorithms."
  },
  {
   "property": "C05",
   "status": "proved",
   "theorems": [
    "Ibig.C05_ubig_div"
   ],
   "note": "div, rem and div_rem, all ownership forms."
  },
  {
   "property": "C06",
   "status": "proved",
   "theorems": [
    "Ibig.C06_div_by_zero"
   ],
   "note": "All twelve operators; also: a non-zero divisor never panics."
  },
  {
   "property": "C07",
   "status": "proved",
   "theorems": [
    "Ibig.C07_ibig_div"
   ],
   "note": "div, rem, div_rem."
  },
  {
   "property": "C08",
   "status": "proved",
   "theorems": [
    "Ibig.C08_ibig_euclid",
    "Ibig.C08_ubig_euclid"
   ],
   "note": "div_euclid, rem_euclid, div_rem_euclid."
  },
  {
   "property": "C09",
   "status": "proved",
   "theorems": [
    "Ibig.C09_ubig_eq_hash",
    "Ibig.C09_ibig_eq_hash"
   ],
   "note": "Well-formedness of every produced value is part of each operation's theorem."
  },
  {
   "property": "C10",
   "status": "proved",
   "theorems": [
    "Ibig.C10_cmp"
   ],
   "note": "UBig and IBig."
  },
  {
   "property": "C11",
   "status": "proved",
   "theorems": [
    "Ibig.C11_ubig_shift"
   ],
   "note": "All ownership forms; usize shift amounts."
  },
  {
   "property": "C12",
   "status": "proved",
   "theorems": [
    "Ibig.C12_ibig_shift"
   ],
   "note": "Floor rounding stated as c*2^n <= a < (c+1)*2^n."
  },
  {
   "property": "C13",
   "status": "proved",
   "theorems": [
    "Ibig.C13_ubig_bitwise"
   ],
   "note": "All ownership forms, every bit position."
  },
  {
   "property": "C14",
   "status": "proved",
   "theorems": [
    "Ibig.C14_ibig_bitwise",
    "Ibig.C14_bits_determine"
   ],
   "note": "Infinite two's complement bits; all sign combinations and ownership forms."
  },
  {
   "property": "C15",
   "status": "partial",
   "theorems": [
    "Ibig.C15_bit_set_bit",
    "Ibig.C15_clear_bit_partial",
    "Ibig.C15_clear_bit_violated",
    "Ibig.C15_clear_bit_exact"
   ],
   "note": "bit and set_bit proved in full. clear_bit is wrong in the code: a non-zero single-word number becomes 0 when the position is beyond the word (proved as C15_clear_bit_violated); the remaining cases are proved. C15_clear_bit_exact: what it does for all arguments, and exactly when that is right."
  },
  {
   "property": "C16",
   "status": "proved",
   "theorems": [
    "Ibig.C16_bit_counts",
    "Ibig.C16_ibig_trailing_zeros"
   ],
   "note": "All functions, UBig and IBig."
  },
  {
   "property": "C17",
   "status": "proved",
   "theorems": [
    "Ibig.C17_from_bytes",
    "Ibig.C17_to_bytes",
    "Ibig.C17_round_trip"
   ],
   "note": "Byte strings longer than the largest buffer (MAX_LEN+4 words) panic 'number too large' even if zero-padded; the theorem says so."
  },
  {
   "property": "C18",
   "status": "proved",
   "theorems": [
    "Ibig.C18_primitive_conversions"
   ],
   "note": "All primitive integer types (u/i 8..128; usize/isize are one of these widths), both directions, and bool."
  },
  {
   "property": "C19",
   "status": "proved",
   "theorems": [
    "Ibig.C19_ubig_to_float",
    "Ibig.C19_ibig_to_float",
    "Ibig.C19_unique"
   ],
   "note": "to_f32/to_f64 of both types are the nearest float, ties to even, with overflow to infinity."
  },
  {
   "property": "C20",
   "status": "proved",
   "theorems": [
    "Ibig.C20_cases",
    "Ibig.C20_ubig_from_str_radix",
    "Ibig.C20_ibig_from_str_radix",
    "Ibig.C20_from_str",
    "Ibig.C20_invalid_digit"
   ],
   "note": "All texts up to isize::MAX bytes, all radixes, all algorithms. A text with an invalid digit gives InvalidDigit, except that a text too long to be examined panics 'number too large'; C20_invalid_digit says exactly which texts these are (see DESIGN)."
  },
  {
   "property": "C21",
   "status": "proved",
   "theorems": [
    "Ibig.C21_in_radix",
    "Ibig.C21_traits",
    "Ibig.C21_unique"
   ],
   "note": "All values, radixes 2..=36, both cases and byte orders; fmt sink assumed not to fail."
  },
  {
   "property": "C22",
   "status": "proved",
   "theorems": [
    "Ibig.C22_ubig",
    "Ibig.C22_ibig"
   ],
   "note": "Text assumed to be a possible Rust string (at most isize::MAX bytes)."
  },
  {
   "property": "C23",
   "status": "proved",
   "theorems": [
    "Ibig.C23_in_radix",
    "Ibig.C23_traits",
    "Ibig.C23_unique"
   ],
   "note": "Every combination of width, fill, alignment, +, #, 0; the specification determines the text uniquely. Includes that the bytes handed to from_utf8_unchecked are ASCII. Failing sinks: C53."
  },
  {
   "property": "C24",
   "status": "proved",
   "theorems": [
    "Ibig.C24_ubig_gcd",
    "Ibig.C24_ibig_gcd"
   ],
   "note": "gcd equals the greatest common divisor; gcd(0,0) panics."
  },
  {
   "property": "C25",
   "status": "proved",
   "theorems": [
    "Ibig.C25_ubig_extended_gcd",
    "Ibig.C25_ibig_extended_gcd",
    "Ibig.C25_size_limit",
    "Ibig.C25_ubig_even",
    "Ibig.C25_ibig_even"
   ],
   "note": "Result satisfies the Bezout identity, or the call panics 'too large', which can only happen if twice the larger argument exceeds the size limit (the code's intermediates can be that large). C25_size_limit: it does happen, for the two largest numbers. C25_ubig_even, C25_ibig_even: it never happens if both arguments are even."
  },
  {
   "property": "C26",
   "status": "proved",
   "theorems": [
    "Ibig.C26_pow"
   ],
   "note": "pow exact for every exponent; panics 'too large' exactly if the power does not fit."
  },
  {
   "property": "C27",
   "status": "proved",
   "theorems": [
    "Ibig.C27_new",
    "Ibig.C27_residue",
    "Ibig.C27_from_ubig",
    "Ibig.C27_from_ibig",
    "Ibig.C27_accepts",
    "Ibig.C27_from_primitive",
    "Ibig.C27_add_sub_neg_eq",
    "Ibig.C27_mul",
    "Ibig.C27_mul_room",
    "Ibig.C27_mul_limit",
    "Ibig.C27_ring_expression"
   ],
   "note": "All moduli and residues. Converting a number panics 'too large' exactly when the number, shifted by the spare bits of the modulus, exceeds the size limit (Accepts). Multiplying modulo a number whose square exceeds the limit may exhaust the address space. C27_mul_room, C27_mul_limit: which builds this concerns, and that it happens."
  },
  {
   "property": "C28",
   "status": "proved",
   "theorems": [
    "Ibig.C28_inverse",
    "Ibig.C28_div",
    "Ibig.C28_size_limit"
   ],
   "note": "May panic 'too large' only if twice the modulus exceeds the size limit. C28_size_limit: it does happen."
  },
  {
   "property": "C29",
   "status": "proved",
   "theorems": [
    "Ibig.C29_pow",
    "Ibig.C29_pow_signed"
   ],
   "note": "Every modulus and exponent; memory exhaustion only for values stated in the theorem."
  },
  {
   "property": "C30",
   "status": "proved",
   "theorems": [
    "Ibig.C30_different_rings",
    "Ibig.C30_same_ring"
   ],
   "note": "Ring identity is the address of the ring object (trusted: live ring objects have distinct addresses)."
  },
  {
   "property": "C31",
   "status": "proved",
   "theorems": [
    "Ibig.C31_ubig_serialize",
    "Ibig.C31_ubig_round_trip",
    "Ibig.C31_ubig_same_build",
    "Ibig.C31_ibig_round_trip",
    "Ibig.C31_any_sequence",
    "Ibig.C31_wrong_announcement",
    "Ibig.C31_negative_zero"
   ],
   "note": "Writer and reader may be different builds. Errors of the data format: C54."
  },
  {
   "property": "C32",
   "status": "proved",
   "theorems": [
    "Ibig.C32_ubig_new",
    "Ibig.C32_ubig_new_inclusive",
    "Ibig.C32_ibig_new",
    "Ibig.C32_ibig_new_inclusive",
    "Ibig.C32_limit",
    "Ibig.C32_ubig_gen_range"
   ],
   "note": "The rand crate's word-level draws are trusted to be independent and uniform. The emptiness assertion of rand's own gen_range is outside the repository."
  },
  {
   "property": "C33",
   "status": "proved",
   "theorems": [
    "Ibig.C33_programs",
    "Ibig.C33_mul_div",
    "Ibig.C33_modular",
    "Ibig.C33_ring_new"
   ],
   "note": ""
  },
  {
   "property": "C34",
   "status": "proved",
   "theorems": [
    "Ibig.C34_programs",
    "Ibig.C33_programs"
   ],
   "note": "Any spare capacity (Cfg.spare); the compactness bound is for Vec::with_capacity giving what is asked."
  },
  {
   "property": "C35",
   "status": "proved",
   "theorems": [
    "Ibig.C35_clone",
    "Ibig.C35_ibig_clone",
    "Ibig.C35_modulo_clone"
   ],
   "note": "clone and clone_from, of numbers and of ring elements."
  },
  {
   "property": "C36",
   "status": "proved",
   "theorems": [
    "Ibig.C36_ubig_unsigned",
    "Ibig.C36_ubig_signed",
    "Ibig.C36_ibig_primitive"
   ],
   "note": "Every operator pairing UBig or IBig with a primitive type, including which ones return the primitive type and which panic. Assign forms are the by-value operators; prim-on-the-left commutative forms swap the arguments."
  },
  {
   "property": "C37",
   "status": "proved",
   "theorems": [
    "Ibig.C37_signs",
    "Ibig.C37_num_traits"
   ],
   "note": "neg, abs, unsigned_abs, signum and the num-traits predicates and constants."
  },
  {
   "property": "C38",
   "status": "proved",
   "theorems": [
    "Ibig.C38_ubig",
    "Ibig.C38_ibig"
   ],
   "note": ""
  },
  {
   "property": "C39",
   "status": "proved",
   "theorems": [
    "Ibig.C39_programs",
    "Ibig.C39_intermediate",
    "Ibig.C39_variables"
   ],
   "note": "Programs over registers: all binary operators in all ownership forms, division pairs, shifts, pow, bit operations, conversions, primitives, parsing, observations. Left out: extended_gcd, modular rings, rand (own properties), clear_bit beyond the first word (C15). C39_variables says what the assignments that both programs share do to the variables."
  },
  {
   "property": "C40",
   "status": "proved",
   "theorems": [
    "Ibig.C40_programs",
    "Ibig.C40_floats",
    "Ibig.C40_ubig_extended_gcd",
    "Ibig.C40_ibig_extended_gcd"
   ],
   "note": "Unless a build stops with number too large, since the limits of the builds differ."
  },
  {
   "property": "C41",
   "status": "proved",
   "theorems": [
    "Ibig.C41_from_str_radix",
    "Ibig.C41_in_radix"
   ],
   "note": "All radixes, all inputs."
  },
  {
   "property": "C42",
   "status": "proved",
   "theorems": [
    "Ibig.C42_from_str_with_radix_prefix",
    "Ibig.C42_round_trip",
    "Ibig.C42_sign_after_prefix",
    "Ibig.C42_invalid_digit"
   ],
   "note": "All strings; all values for the # round trip; a sign after the prefix (as the doc comment, but not its examples, would allow) is always rejected; exactly which texts with an invalid digit panic because of their length."
  },
  {
   "property": "C43",
   "status": "partial",
   "theorems": [
    "Ibig.C43_abs_sub_partial",
    "Ibig.C43_abs_sub_violated",
    "Ibig.C43_abs_sub_exact"
   ],
   "note": "The code computes |a-b|: the contract is proved for a >= b and its violation for every a < b. C43_abs_sub_exact: the contract holds exactly if a >= b."
  },
  {
   "property": "C44",
   "status": "proved",
   "theorems": [
    "Ibig.C44_small_divisor",
    "Ibig.C44_normalized_divisor",
    "Ibig.C44_radix_table"
   ],
   "note": "All word sizes >= 16 bits."
  },
  {
   "property": "C45",
   "status": "proved",
   "theorems": [
    "Ibig.C45_ring",
    "Ibig.C45_modulo",
    "Ibig.C23_unique"
   ],
   "note": "Formatting of ModuloRing and Modulo for all traits and flags; the formatter of core for primitive words is modelled from its documentation. The debug-hex flags ({:x?}) are not modelled."
  },
  {
   "property": "C46",
   "status": "proved",
   "theorems": [
    "Ibig.C46_ident",
    "Ibig.C46_ident_invalid",
    "Ibig.C46_base",
    "Ibig.C46_base_invalid",
    "Ibig.C46_literal"
   ],
   "note": "All forms of ubig! and ibig!; stringify! of a token is trusted to give its text."
  },
  {
   "property": "C47",
   "status": "proved",
   "theorems": [
    "Ibig.C47_primes",
    "Ibig.C47_tables",
    "Ibig.C47_capacity"
   ],
   "note": "Lucas certificates for the nine primes; the finite tables are evaluated completely by the kernel."
  },
  {
   "property": "C48",
   "status": "proved",
   "theorems": [
    "Ibig.C48_caught_panics"
   ],
   "note": "Programs with caught panics (blocks run up to their first panic) over the instruction set of C39; extended_gcd, modular, serde and rand are not instructions; clear_bit only below the word size (C15)."
  },
  {
   "property": "C49",
   "status": "proved",
   "theorems": [
    "Ibig.C49_programs",
    "Ibig.C49_room",
    "Ibig.C49_independent",
    "Ibig.C49_variables"
   ],
   "note": "All programs over numbers, rings and elements. Near the size limit a program may stop with 'number too large' or exhausted memory; MInstr.Room says when this cannot happen. C49_variables says what the assignments that both programs share do to the variables."
  },
  {
   "property": "C50",
   "status": "proved",
   "theorems": [
    "Ibig.C50_scratch",
    "Ibig.C50_no_ub",
    "Ibig.C50_new",
    "Ibig.C50_drop",
    "Ibig.C50_words"
   ],
   "note": "Raw pointers, bytes, alignment and the stack of live slices are modelled; undefined behaviour is an explicit outcome. The contracts of core::alloc::Layout, alloc, dealloc, ptr::add, ptr::write and slice::from_raw_parts_mut are taken from their documentation."
  },
  {
   "property": "C51",
   "status": "proved",
   "theorems": [
    "Ibig.C51_mul",
    "Ibig.C51_div",
    "Ibig.C51_ring",
    "Ibig.C51_pow",
    "Ibig.C51_buffer"
   ],
   "note": "Layouts in bytes agree with the word counts of the word-level model, for which C33 shows that they suffice. Buffers of numbers never ask for more than isize::MAX bytes."
  },
  {
   "property": "C52",
   "status": "proved",
   "theorems": [
    "Ibig.C52_add",
    "Ibig.C52_sub",
    "Ibig.C52_generic",
    "Ibig.C52_choice"
   ],
   "note": "The intrinsics _addcarry_u32/u64 and _subborrow_u32/u64 are modelled from Intel's documentation."
  },
  {
   "property": "C53",
   "status": "proved",
   "theorems": [
    "Ibig.C53_traits",
    "Ibig.C53_in_radix",
    "Ibig.C53_modular"
   ],
   "note": "The sink is an arbitrary function from the calls so far to success or failure. How core cuts the text of a primitive integer into calls is arbitrary."
  },
  {
   "property": "C54",
   "status": "proved",
   "theorems": [
    "Ibig.C54_serialize",
    "Ibig.C54_deserialize_ok",
    "Ibig.C54_deserialize_error"
   ],
   "note": "The tuple encoding of IBig is serde's own code."
  },
  {
   "property": "C55",
   "status": "proved",
   "theorems": [
    "Ibig.C55_multiplication",
    "Ibig.C55_same_length",
    "Ibig.C55_division",
    "Ibig.C55_parsing",
    "Ibig.C55_printing",
    "Ibig.C55_limits"
   ],
   "note": "The recursive functions of the model are given the number of nested calls they may make; the public operations give them exactly these logarithmic limits, so every other theorem also shows that the limits suffice."
  },
  {
   "property": "C56",
   "status": "proved",
   "theorems": [
    "Ibig.C56_product",
    "Ibig.C56_factorial",
    "Ibig.C56_main"
   ],
   "note": "The example program examples/factorial.rs; beyond the size limit it panics with 'number too large'."
  },
  {
   "property": "C57",
   "status": "proved",
   "theorems": [
    "Ibig.C57_is_prime",
    "Ibig.C57_terminates",
    "Ibig.C57_find_root",
    "Ibig.C57_print_primes",
    "Ibig.C57_tables"
   ],
   "note": "The random draws are arbitrary; the loop of is_prime is cut off after t draws, and the theorems say which draws end it."
  },
  {
   "property": "C58",
   "status": "partial",
   "theorems": [
    "Ibig.C58_numbers",
    "Ibig.C58_rings_violated",
    "Ibig.C58_rings_partial",
    "Ibig.C58_same_text_partial",
    "Ibig.C58_rings_exact"
   ],
   "note": "The property is false of the code: with {:x?} a ring prints hexadecimal or decimal depending on whether the modulus fits in a word. C58_rings_violated proves the negation; the partial theorems say exactly what is printed and when builds agree. C58_rings_exact: without a width, the texts of two builds agree exactly if the flag is off or the modulus fits into a word on both or on none."
  },
  {
   "property": "C59",
   "status": "proved",
   "theorems": [
    "Ibig.C59_max_len",
    "Ibig.C59_compiles"
   ],
   "note": "Consts.compile evaluates the constants and checks the static assertions for the architecture that chooseArch selects."
  },
  {
   "property": "C60",
   "status": "proved",
   "theorems": [
    "Ibig.C60_same_result",
    "Ibig.C60_ubig_mul",
    "Ibig.C60_ibig_mul",
    "Ibig.C60_ubig_mul_same",
    "Ibig.C60_counts"
   ],
   "note": "at most 27(n+m)min(n,m)^0.47 steps; 54 n^1.47 for equal lengths C60_counts: the counted steps are at least n m for schoolbook sizes and at least n + m."
  },
  {
   "property": "C61",
   "status": "proved",
   "theorems": [
    "Ibig.C61_same_result",
    "Ibig.C61_ubig_div",
    "Ibig.C61_ibig_div",
    "Ibig.C61_ubig_div_same",
    "Ibig.C61_euclid_same_result",
    "Ibig.C61_ubig_euclid",
    "Ibig.C61_ibig_euclid",
    "Ibig.C61_counts"
   ],
   "note": "at most 210 n min(n,m)^0.47 steps; 210 n^1.47 for every divisor; Euclidean division of IBig 29n+14m+14 more C61_counts: the counted steps are at least n - m, and (n - m) m for schoolbook sizes."
  },
  {
   "property": "C62",
   "status": "proved",
   "theorems": [
    "Ibig.C62_same_result",
    "Ibig.C62_ubig_add",
    "Ibig.C62_ubig_sub",
    "Ibig.C62_ibig_add_sub",
    "Ibig.C62_counts"
   ],
   "note": "at most 13(n+m) steps C62_counts: the counted steps are at least the number of words of the shorter operand."
  },
  {
   "property": "C63",
   "status": "proved",
   "theorems": [
    "Ibig.C63_same_result",
    "Ibig.C63_ubig_pow",
    "Ibig.C63_ibig_pow",
    "Ibig.C63_ubig_pow_total",
    "Ibig.C63_counts"
   ],
   "note": "at most 54(ne)^1.47 + 108 n e n^0.47 steps for the power e of a number of n words C63_counts: the counted steps are at least the number of bits of the exponent."
  },
  {
   "property": "C64",
   "status": "proved",
   "theorems": [
    "Ibig.C64_same_result",
    "Ibig.C64_from_str_radix",
    "Ibig.C64_power_of_two",
    "Ibig.C64_total",
    "Ibig.C64_counts"
   ],
   "note": "at most 9n + 175 N^1.47 + 14 steps for n bytes and N words; linear in power-of-two radixes C64_counts: the counted steps are at least the number of characters of an accepted text."
  },
  {
   "property": "C65",
   "status": "proved",
   "theorems": [
    "Ibig.C65_same_result",
    "Ibig.C65_in_radix",
    "Ibig.C65_traits",
    "Ibig.C65_power_of_two",
    "Ibig.C65_to_string",
    "Ibig.C65_counts"
   ],
   "note": "Steps counted by Timed twins of the formatting functions, shown to return the same results. C65_counts: the counted steps are at least the number of characters written."
  },
  {
   "property": "C66",
   "status": "proved",
   "theorems": [
    "Ibig.C66_mul_word",
    "Ibig.C66_add_mul_word",
    "Ibig.C66_sub_mul_word",
    "Ibig.C66_shl",
    "Ibig.C66_shift_word",
    "Ibig.C66_fast_divide_small",
    "Ibig.C66_fast_divide_normalized",
    "Ibig.C66_refine",
    "Ibig.C66_mul_words",
    "Ibig.C66_modular_small",
    "Ibig.C66_lengths",
    "Ibig.C66_indices",
    "Ibig.C66_chunks",
    "Ibig.C33_programs",
    "Ibig.C33_mul_div",
    "Ibig.C33_modular"
   ],
   "note": "Checked operations are explicit in the model and C33 shows that they never fail; C66 covers the places where the model computes with unlimited integers."
  },
  {
   "property": "C67",
   "status": "proved",
   "theorems": [
    "Ibig.C67_same_result_shift",
    "Ibig.C67_same_result_bitwise",
    "Ibig.C67_same_result_compare",
    "Ibig.C67_ubig_shift",
    "Ibig.C67_ibig_shift",
    "Ibig.C67_ubig_bitwise",
    "Ibig.C67_ibig_bitwise",
    "Ibig.C67_trailing_zeros_cmp",
    "Ibig.C67_counts"
   ],
   "note": "Linear bounds on counted steps; the counting functions return the same results. C67_counts: the counted steps of bitwise operators are at least the number of words of the shorter operand."
  },
  {
   "property": "C68",
   "status": "proved",
   "theorems": [
    "Ibig.C68_same_result",
    "Ibig.C68_ubig_gcd",
    "Ibig.C68_ibig_gcd",
    "Ibig.C68_extended_gcd",
    "Ibig.C68_counts"
   ],
   "note": "Bounds on counted steps; the counting functions return the same results. C68_counts: gcd counts at least the number of words of both operands."
  },
  {
   "property": "C69",
   "status": "proved",
   "theorems": [
    "Ibig.C69_same_result",
    "Ibig.C69_new",
    "Ibig.C69_linear",
    "Ibig.C69_from",
    "Ibig.C69_mul",
    "Ibig.C69_inverse_div",
    "Ibig.C69_pow",
    "Ibig.C69_pow_signed",
    "Ibig.C69_counts",
    "Ibig.C69_counts_word"
   ],
   "note": "Bounds on counted steps; the counting functions return the same results. C69_counts, C69_counts_word: lower bounds on the counted steps (n for linear operations, n^2 for products of at most 24 words, one product for every exponent bit except one)."
  },
  {
   "property": "C70",
   "status": "proved",
   "theorems": [
    "Ibig.C70_value",
    "Ibig.C70_succeeds",
    "Ibig.C70_panics",
    "Ibig.C70_ownership",
    "Ibig.C70_identity",
    "Ibig.C70_ubig_laws",
    "Ibig.C70_ibig_laws",
    "Ibig.C70_mixed_laws",
    "Ibig.C70_order"
   ],
   "note": "C70_value, C70_succeeds, C70_panics: an expression gives its value in the unlimited integers, runs when its parts fit, and otherwise panics only for size or for lack of a value. C70_identity: expressions equal in the unlimited integers are not told apart by ==, cmp and Hash; C70_ubig_laws, C70_ibig_laws, C70_mixed_laws name 93 identities. C70_order: total order compatible with +, -, * and negation."
  },
  {
   "property": "C71",
   "status": "proved",
   "theorems": [
    "Ibig.C71_left",
    "Ibig.C71_in_place",
    "Ibig.C71_caught_panics"
   ],
   "note": "C71_left ties the in-place model to the operators; C71_in_place: a panicking in-place operator leaves its operand unchanged; C71_caught_panics: programs of blocks refine the mathematical relation ModCaught, every variable stays valid."
  },
  {
   "property": "C72",
   "status": "proved",
   "theorems": [
    "Ibig.C72_monotone",
    "Ibig.C72_exact",
    "Ibig.C72_error"
   ],
   "note": "Consequences of C19 stated with the numbers the bit patterns stand for (Spec/FloatOrder.lean)."
  },
  {
   "property": "C73",
   "status": "proved",
   "theorems": [
    "Ibig.C73_mul",
    "Ibig.C73_div",
    "Ibig.C73_ring",
    "Ibig.C73_pow"
   ],
   "note": "About the layouts in bytes that the crate computes (C51 shows that these are what is allocated); logarithms are bit lengths. Buffers of numbers are not included (C34)."
  },
  {
   "property": "C74",
   "status": "proved",
   "theorems": [
    "Ibig.C74_programs",
    "Ibig.C74_panics",
    "Ibig.C74_random",
    "Ibig.C74_progress",
    "Ibig.C74_variables"
   ],
   "note": "Operations that the programs of C39-C49 and C71 contain, plus extended_gcd, serde and rand; clear_bit only below the word size (C15). Control flow is an arbitrary relation between the trace and the next instruction. Failing data formats and failing sinks are C53 and C54. C74_variables says what the assignments that both programs share do to the variables."
  },
  {
   "property": "C75",
   "status": "proved",
   "theorems": [
    "Ibig.C75_portable"
   ],
   "note": "For the programs of C74. The limits differ between builds, so a build may report a limit where the other goes on."
  },
  {
   "property": "C76",
   "status": "proved",
   "theorems": [
    "Ibig.C76_ubig",
    "Ibig.C76_ibig",
    "Ibig.C76_one_word"
   ],
   "note": "Expected number of draws (Spec/RandCost) of the sampler cut off after any number of attempts; the bound does not depend on the cut-off. A draw is one call of rand for a word; how many raw outputs rand uses for it is outside the repository."
  },
  {
   "property": "C77",
   "status": "proved",
   "theorems": [
    "Ibig.C77_same_result_conversions",
    "Ibig.C77_same_result_bits",
    "Ibig.C77_from_bytes",
    "Ibig.C77_to_bytes",
    "Ibig.C77_primitive",
    "Ibig.C77_float",
    "Ibig.C77_bit",
    "Ibig.C77_bits",
    "Ibig.C77_counts"
   ],
   "note": "Bounds on counted steps; the counting functions return the same results. Reading or writing the bytes of one word is one step. C77_counts: at least one step for every word of the bytes."
  },
  {
   "property": "C78",
   "status": "proved",
   "theorems": [
    "Ibig.C78_ubig",
    "Ibig.C78_ibig",
    "Ibig.C78_same_range"
   ],
   "note": "As in C32 the rand crate's word-level draws are trusted to be independent and uniform; the probability is the limit for an unbounded number of attempts in each draw."
  },
  {
   "property": "C79",
   "status": "proved",
   "theorems": [
    "Ibig.C79_same_result",
    "Ibig.C79_serialize",
    "Ibig.C79_deserialize",
    "Ibig.C79_counts"
   ],
   "note": "Steps as in C60; the time of the data format itself is not counted; exact totals in Tests/Steps.lean. C79_counts: at least one step for every word or element."
  },
  {
   "property": "C80",
   "status": "proved",
   "theorems": [
    "Ibig.C80_same_result",
    "Ibig.C80_ubig",
    "Ibig.C80_ibig"
   ],
   "note": "Expected steps (Spec/RandTime) of the sampler cut off after any number of attempts; the bound does not depend on the cut-off. A call that panics (empty range, or a size limit) counts as 0. One step for a word drawn; the time rand takes for it is not counted. Exact totals in Tests/Steps.lean."
  },
  {
   "property": "C81",
   "status": "proved",
   "theorems": [
    "Ibig.C81_same_result",
    "Ibig.C81_add",
    "Ibig.C81_counter",
    "Ibig.C81_sub",
    "Ibig.C81_up_down"
   ],
   "note": "Potential argument over the number of all-ones (or zero) words and the distance of the buffer's length from the points where it is reallocated. The hypothesis that vectors have exactly the requested capacity (spare = 0) is what Vec::with_capacity does in std for words, although its documentation promises only at least that capacity. The counting functions of Model/Accumulate.lean count a reallocation only when there is one; C81_same_result says that they return what the model's += and -= return. C81_up_down shows that the bound cannot hold for mixed sequences."
  },
  {
   "property": "C82",
   "status": "proved",
   "theorems": [
    "Ibig.C82_same_result",
    "Ibig.C82_set",
    "Ibig.C82_clear",
    "Ibig.C82_set_clear"
   ],
   "note": "Same potential as C81. The values after clear_bit are stated in C82_set_clear, where the number stays larger than a word; for clearing alone they are those of C15, which the code violates for single-word numbers. Assumes, like C81, that vectors have exactly the requested capacity."
  },
  {
   "property": "C83",
   "status": "proved",
   "theorems": [
    "Ibig.C83_mul",
    "Ibig.C83_16bit",
    "Ibig.C83_div",
    "Ibig.C83_window",
    "Ibig.C83_pow"
   ],
   "note": "All rings, elements and exponents on all builds. Division assumes that twice the modulus fits in a number (otherwise the inverse may panic 'number too large', C28). Exhausted memory here means a layout beyond isize::MAX bytes; an allocator that refuses smaller requests is not modelled."
  },
  {
   "property": "C84",
   "status": "proved",
   "theorems": [
    "Ibig.C84_bit_len",
    "Ibig.C84_single_bits",
    "Ibig.C84_trailing_zeros",
    "Ibig.C84_power_of_two",
    "Ibig.C84_equality",
    "Ibig.C84_order",
    "Ibig.C84_ibig_order",
    "Ibig.C84_division",
    "Ibig.C84_modular",
    "Ibig.C84_texts"
   ],
   "note": "Every statement compares results of API functions with each other (Spec/Agreement.lean). clear_bit is left out: it is wrong (C15). In a ring, reduction may panic 'too large' near the size limit (C27, C28 say when)."
  }
 ]
}