# A machine-checked model of tczajka/ibig-rs

## 1. Shape of the model

The model is written in Lean 4 under `lean/Verif/`. It follows the Rust source function by function;
every definition cites the file and lines it models.

| directory | contents |
|-----------|----------|
| `Verif/Model` | the model: one module per source file or group of files |
| `Verif/Spec`  | the specification: what values denote, what a result has to be; plus example values |
| `Verif/Proofs`| lemmas |
| `Verif/Props` | the property theorems `Cnn_…` (listed in `MANIFEST.json`), each with non-vacuity examples |

* **Builds.** A build is a `Cfg`: word size `W`, size `U` of `usize`, `MAX_LEN`, and the extra capacity `spare n` that
  `Vec::with_capacity(n)` gives. Every theorem is about all builds with `Cfg.Valid`; `builds_valid` shows that all nine
  combinations of word size (16, 32, 64) and `usize` (16, 32, 64), with any `spare`, are valid.
* **Words.** The base is `B = 2^W`. A word is a `Nat` that is `< B`; every wrapping operation has an explicit `% B`,
  every checked one an explicit check.
* **Slices** `&[Word]`/`&mut [Word]` are `List Nat`, little-endian. `&mut` functions return the new list.
* **Buffers** (`Vec<Word>` wrapper) are a word list plus a capacity.
* **Panics.** Everything that can panic returns `R α = Except Panic α`; `assert!`, `debug_assert!`,
  out-of-range slicing, `unwrap`, checked (debug-build) word arithmetic and the crate's own panics are explicit
  error values. A theorem of the form `∃ r, f x = .ok r ∧ …` therefore says "no panic in a debug build, and …",
  and in a release build the same computation (no overflow happened, so nothing wrapped).
* **Loops** are structural recursion, or recursion on an explicit number whose exhaustion is the error
  `Panic.fuel`; since the theorems conclude `.ok` or a documented panic, they include termination. For the algorithms that
  are recursive in Rust this number is the number of nested calls allowed; it is logarithmic in the length (C55).
* **Scratch memory** (`memory.rs`) is the number of words still available; `allocate_slice` fails when it is not
  enough. That this abstraction is right is itself proved, over a model with addresses, bytes, alignment and a stack of
  live slices in which undefined behaviour is an explicit outcome (C50, C51).
* **Ownership forms.** `a + b` for all combinations of owned and borrowed arguments are modelled separately
  (`Own = val | ref`); `op=` is the owned form applied to the old value, as in the source.
* **Specification.** `val W ws = Σ wsᵢ·B^i` for slices, `UBig.value`, `IBig.value` for numbers; core and Mathlib `Nat`,
  `Int`, `Nat.testBit`, `Nat.gcd`, `Nat.ofDigits`, `ZMod` (C49). `Yields cfg x n` says that the computation `x` returns a
  well-formed number with value `n` if `n` fits (is below `2^(MAX_LEN·W)`), and panics with "number too large" if not.
  Property theorems mention only the API-level model function, these abstraction functions and mathematical notions.

## 2. Properties: what is modelled and how it is proved

| id | modelled | proof idea |
|----|----------|-----------|
| C01 | `add_ops.rs` UBig, all 4 ownership forms, `add.rs` | carry invariant `val out + c·B^n = val a + val b` by induction on the list |
| C02 | same for Sub; underflow | borrow invariant; final borrow ⇔ a < b |
| C03 | IBig add/sub, `sub_in_place_with_sign` | case split on signs over the unsigned lemmas |
| C04 | `mul_ops.rs`, `mul/*` (simple, Karatsuba, Toom-3, chunking) | one signed-carry specification `val c' + k·B^n = val c ± val a·val b` proved for every level by induction on the number of nested calls |
| C05 | `div_ops.rs`, `div/*`, `fast_divide.rs` | Knuth D estimate bound; Burnikel–Ziegler style recursion by induction |
| C06 | panic paths of division | direct evaluation of the model |
| C07, C08 | IBig division families | from C05 by sign cases |
| C09 | `Repr` invariants, derived Eq/Hash | uniqueness of base-B numerals; every operation's theorem includes well-formedness |
| C10 | `cmp.rs` | lexicographic comparison from the top |
| C11, C12 | `shift.rs`, `shift_ops.rs` | value of shifted list; floor via low-bits test |
| C13, C14 | `bits.rs` | `Nat.testBit` of `val`; `!x = -x-1` |
| C15, C16 | `bits.rs` | same; C15 is false for `clear_bit` (see §5): negation and partial |
| C17 | `convert.rs` bytes | base-256 numerals regrouped into words |
| C18 | primitive conversions | range case split |
| C19 | `to_f32/to_f64` | bit-level result against an independent nearest-even specification, which is shown to have one solution |
| C20–C23 | `parse/*`, `fmt/*`, `radix.rs`, `digit_writer.rs` | positional value of digit strings; loops as invariants on the remaining text; padding is specified by lengths |
| C24, C25 | `gcd.rs` | loop invariants; the Bézout identity and its bounds |
| C26 | `pow.rs` | left-to-right binary invariant |
| C27–C30 | `modular/*` | normalised-residue invariant |
| C31 | `serde.rs` | regrouping words ↔ u64 |
| C32 | `rand.rs` | counting accepted draws; the limit of the rejection loop |
| C33 | memory requirements of `mul`/`div`/`modular` | recursion with explicit scratch counter |
| C34, C35 | `buffer.rs` capacities | invariant preserved by every operation |
| C36 | primitive operand forwards | from C01–C14, C18 |
| C37 | `sign.rs`, `num_traits.rs` | cases |
| C38 | MAX_LEN checks | `len ≤ MAX_LEN ⇔ value < B^MAX_LEN` |
| C39, C40 | programs (sequences of operations over variables) | simulation of mathematical integers, by induction over the program; `Instr.math` mentions no words, hence C40; `extended_gcd` by relating two runs (Bézout coefficients are not unique) |
| C41, C42 | radix checks and prefixes | direct |
| C43 | `num_traits.rs` `abs_sub` | false of the code (see §5): negation and partial |
| C44 | `fast_divide.rs` | Granlund–Montgomery bound; Möller–Granlund invariant |
| C45 | `modular/fmt.rs` | C23 and a model of core's formatting of primitive integers |
| C46 | `ubig.rs`, `ibig.rs`, `parse` macros | the token text parsed by the model of `from_str_radix` |
| C47 | `arch/*/ntt.rs`, `ubig.rs` `MAX_LEN` | Lucas certificates; complete evaluation of the finite tables by the kernel |
| C48 | programs whose panics are caught | C39 with blocks; the state that a panicking assignment leaves behind |
| C49 | programs with rings and ring elements | simulation of `ZMod n` |
| C50 | `memory.rs`, unsafe code | a byte-level machine with explicit undefined behaviour; agreement with the word-counting model |
| C51 | `memory.rs` layouts, `buffer.rs` requests | layouts in bytes equal the word counts |
| C52 | `arch/*` | the intrinsics' carry equations |
| C53 | `fmt/*` into failing sinks | the sink is an arbitrary function of the calls so far |
| C54 | `serde.rs` with failing data formats | the format is an arbitrary answering function |
| C55 | recursion depth of `mul`, `div`, `parse`, `fmt` | induction with the length at most `24·2^depth`, `32·2^depth`, … |
| C56 | `examples/factorial.rs` | induction on the depth of the product tree |
| C57 | `dev-tools/src/bin/ntt_primes.rs` | Miller–Rabin and Lucas for arbitrary draws; all candidates by a sieve evaluated by the kernel |
| C58 | `Debug` with `{:x?}`, `{:X?}` | violated; case distinction on the size of the modulus |
| C59 | constants evaluated at compile time, static assertions | evaluation over the complete table of architectures and sizes of `usize`; the limit is maximal by arithmetic; radix and NTT tables by C42/C47 lemmas |
| C60 | the time of `*` | a copy of the code that counts steps (`Model/Timed`, `MulTime`, `MulOpsTime`), shown to return the same results; recurrences for the algorithms; `n^1.47` by induction, with a table for fewer than 1400 words evaluated by the kernel |
| C61 | the time of `/`, `%`, `div_rem` and of Euclidean division | as C60 (`Model/DivTime`, `DivOpsTime`, `EuclidTime`); a normalised divisor bounds the corrections of each quotient word by two; the recurrence of divide and conquer by induction, with the bound of C60 for the multiplications |
| C62 | the time of `+`, `-` | as C60 (`Model/AddOpsTime`); each buffer and each loop is bounded by the lengths of the operands |
| C63 | the time of `pow` | as C60 (`Model/PowTime`); the squarings form a geometric sum: a potential function over the bits of the exponent, with the bound of C60 for each multiplication |
| C64 | the time of parsing | as C60 (`Model/ParseTime`), looking at a byte is a step; the number of words of each part follows from its number of digits; the table of powers is a geometric sum, the recursion halves the text and multiplies with the bound of C60 |
| C65 | the time of formatting | as C60 (`Model/FmtTime`), writing a character is a step; the digit writer's buffer is paid for by a potential; the table of powers is a geometric sum, each division halves the number and costs the bound of C61; the total is `n^1.47` plus a multiple of the length of the text |
| C66 | overflow checks make no difference | second versions with every check (`Model/Checked`) of the functions that the model computes with unlimited integers, equal to the first; bounds for sums of lengths; elsewhere checked arithmetic is explicit in the model |
| C67 | the time of shifts, bitwise operators, `trailing_zeros`, comparisons | as C60 (`Model/ShiftOpsTime`, `Model/BitsTime`); one pass over each operand, the lengths of intermediate results bounded |
| C68 | the time of gcd and extended_gcd | as C60 (`Model/GcdTime`); every round of the binary algorithm removes a bit, so the sum of the binary logarithms pays for the rounds; the coefficients stay below the operands by the invariant of C25 |
| C69 | the time of modular arithmetic | as C60 (`Model/ModularTime`); a product is one multiplication and one in-place division (C60, C61); the potential of a power is the number of exponent bits left, and the length of the window is chosen such that its table takes at most one multiplication for every two bits of the exponent |
| C70 | identities between expressions | expressions over the operations of C39 (`Model/Expr`), their meaning in the unlimited integers (`Spec/Expr`); induction over the expression with the refinement of each operation; each law is then a fact about integers, carried over to `==`, `cmp` and `Hash` by C09 and C10 |
| C71 | caught panics with modular rings | the in-place operators of `Modulo` modelled a second time with what they leave in the variable when they panic (`Model/ModUnwind`), shown to agree with the first model; the specification (`Spec/ModUnwind`) is a relation, since an instruction near the limits of a build may panic or not; induction over blocks with C49's refinement |
| C72 | float conversions: order, exactness, error | `Spec/FloatOrder` gives the number (a rational or an infinity) a bit pattern stands for; the three claims follow from C19's `Nearest` alone, by facts about the grid of floats |
| C73 | size of scratch memory | the layouts of C51, in bytes, bounded by linear functions of the operands' lengths; the window length of modular powers gives the bound on the table. Buffers of numbers are not part of this (C34 bounds their capacity) |
| C74 | interactive programs | a run is a sequence of instructions, each chosen by an arbitrary relation from the trace so far (`Model/Interact`); the specification (`Spec/Interact`) is the same relation over mathematical values, with every permitted Bezout pair and random number; induction over the run with C71's refinement and C25, C31, C32 |
| C75 | interactive programs on two builds | simulation between two runs of `Model/Interact`: variables of both builds stand for the same mathematical variables; each instruction has the same outcome on both or reports a limit (C40 for Bezout coefficients, C32 for every number of a range) |
| C76 | number of random draws | expectation over the draw trees of C32 (`Spec/RandCost`); a tie with the bound costs at most two draws more on average, and the top word ties with probability at most 1/2 |
| C77 | time of conversions and bit functions | counting functions (`Model/ConvertTime`) with equal results; loops over words counted one by one; floats: a number above 1024 bits gives infinity at once, so at most 64 words are shifted |
| C78 | Several draws in a row (`successive`, Spec/RandSeq.lean), the range of each chosen from the numbers before it; probabilities as in C32. | The probability of a sequence is the product of those of its members (`successive_prob`, by the law for sequencing draws); each factor tends to `1/(high - low)` by C32. |
| C79 | time of serialization: `Timed.UBig.serialize`, … (Model/SerdeTime.lean): the text of Model/Serde.lean with counting; one step for an element passed to or taken from the data format. | Induction over the chunks and the elements; the buffer is allocated once, so a `push` is one step. |
| C80 | expected time of drawing a random number: `TDraw.genUBig`, … (Model/RandTime.lean): the text of Model/Rand.lean with counting, a random computation whose result carries its steps. | Expected cost by the law of total expectation: a failed attempt costs at most a constant plus the words compared, and each further word is compared with probability at most 1/2; successful attempts are bounded outright. |
| C81 | amortized time of `x += y` and `x -= y`: `Timed.Exact.addAll`, `subAll` (Model/Accumulate.lean): the owned forms of addition and subtraction with the exact steps of the buffer functions (a reallocation counts its words only if it takes place). | Potential method: all-ones words (for sums) or zero words (for differences), plus the distance of length and capacity from the points where the buffer grows or shrinks. A lower bound for alternating sums and differences shows that one direction is needed. |
| C82 | amortized time of `set_bit` and `clear_bit`: `Timed.Exact.putAll` (Model/BitSetTime.lean). | The potential of C81; the words by which the number grows pay for the reallocations. |
| C83 | `modular/{mul,div,pow}.rs`, memory requirements of `mul`, `div` | closed formulas for the words requested (Spec/RingMemory.lean: `ringScratch`, `IsWindow`); the model's requirements are shown equal to them, and everything after the allocation is shown to succeed |
| C84 | `bits.rs`, `cmp.rs`, `convert.rs`, `fmt`, `gcd.rs`, `div_ops.rs`, `modular` | corollaries of the theorems about the single functions, stated without reference to the number a value stands for: same panic, or results equal under the crate's `==` (Spec/Agreement.lean); proofs about the order of numerals in Proofs/Agreement.lean |

Later properties, if any, are described in `properties.jsonl` and in the comments of the theorems that `MANIFEST.json` lists.

## 3. What is modelled and what is not

All files under `/repo/src`, `/repo/examples` and `/repo/dev-tools` are modelled, with these limits.

* *Not modelled*: the text that the development tool prints (a line with a floating point quotient among others; C57 is
  about the numbers in it); benchmarks; `#[derive]`d code other than `PartialEq`, `Eq`, `Hash`,
  `Clone` of the number types; documentation tests; `std::error::Error` (it has no methods of its own).
* *Time* (C60–C65, C67–C69, C77, C79–C82): a step is one iteration of a loop over words, or one operation of constant time that can panic
  (indexing, slicing, checked arithmetic, assertions, division of a double word). Operations on words that cannot panic
  come with one of these and are not counted; there is a constant number of them to each step. Allocating memory is one
  step, copying or filling `k` words is `k` steps. The counting functions are a second copy of the text of the model;
  `C60_same_result`, `C61_same_result`, … tie their results (not their counts) to the model that the other properties are about.
  The counts are bounded from below as well (`C60_counts` to `C65_counts`, `C67_counts` in
  `Props/Counted`; `C68_counts`, `C69_counts`, `C77_counts`, `C79_counts` in `Props/CountedMore`): a function
  that drops the steps of a loop over words or characters does not satisfy them. `Tests/Steps` has exact totals of the steps of
  all counting functions over many arguments, so that no operation is left uncounted. Only C81 and C82 assume that vectors have
  exactly the requested capacity.
* *Programs* (C39, C40, C48, C49, C71) leave out `extended_gcd`, serde and rand, which the programs of C74 have;
  C39, C40 and C48 leave out modular rings (C49, C71). `clear_bit` occurs only below the word size (because of §5). Texts to be parsed are either valid or
  short enough that their length does not exceed the limit. A variable passed by value can still be read later: this
  allows more programs than Rust does.
* *Simplifications*, each mentioned in the comment of its definition: double-word arithmetic, and sums and multiples of lengths
  (which are at most `MAX_LEN + 4` each), are in places computed with unlimited integers, without the check that a build
  with overflow checks makes. C66 shows, for each such place, that the checks cannot fail and that the machine's numbers are
  the same.

## 4. Trusted base

* Lean 4.33.0's kernel. The axioms that each theorem depends on are at most `propext`, `Classical.choice`, `Quot.sound`; there are
  no others, no `sorry`, no `native_decide`, no `bv_decide`.
* The reading of the Rust source into the model (no code was executed).
* The Rust language and `core`: primitive integer semantics (`wrapping_*`, `leading_zeros`, casts), slices, drop order, unwinding.
  `core::fmt`'s formatting of primitive integers (C45) and padding options, as documented. Endianness of the target is a parameter.
* `alloc`: `Vec` has at least the requested capacity; running out of memory aborts and is not modelled, except that the crate's
  own "out of memory" panic for impossible layouts is. Contracts of `core::alloc::Layout`, `alloc`, `dealloc`, `ptr::add`,
  `ptr::write`, `slice::from_raw_parts_mut` as documented (C50).
* Live ring objects have distinct addresses (C30, C49): ring identity is the address of the ring.
* Floats are bit patterns (`from_bits`).
* Texts are at most `isize::MAX` bytes long, as Rust guarantees; `from_utf8_unchecked` is an assertion that the bytes are ASCII.
* Intel's documentation of `_addcarry_u32/u64`, `_subborrow_u32/u64` (C52).
* `stringify!` of a token is its text (C46).
* serde: the encoding of the `(Sign, UBig)` tuple for `IBig` is serde's; rand: words drawn by the generator are independent and
  uniform (C32). Default methods of the num-traits and rand traits are outside the repository.

## 5. Disagreements found between properties and code

1. **`UBig::clear_bit`** (`src/bits.rs:100-109`): for a single-word number and `n >= WORD_BITS` the value taken out by
   `mem::take` is never put back, so `ubig!(5).clear_bit(100)` leaves 0. (`C15_clear_bit_violated`, `C15_clear_bit_partial`)
2. **`Signed::abs_sub` for IBig** (`src/num_traits.rs:90`) returns `|a - b|`, but the num-traits contract is
   "0 if self <= other, otherwise self - other". (`C43_abs_sub_violated`, `C43_abs_sub_partial`)
3. **`{:x?}` and `{:X?}` of `ModuloRing` and `Modulo`** (`src/modular/fmt.rs`): if the modulus fits in a word, the numbers are
   printed by `core`'s `Debug` for `Word`, in hexadecimal; otherwise by the crate's `Debug` for `UBig`, in decimal. So the
   text depends on the word size of the build. (`C58_rings_violated`, `C58_rings_partial`, `C58_same_text_partial`)

## 6. Behaviour near the size limit and other observations

These do not contradict a property as stated, but were found while making the theorems exact; the theorems say when they happen.

* `from_le_bytes`/`from_be_bytes` and deserialization of an over-long zero-padded input panic "number too large" although the
  value fits.
* The doc comments of `from_str_with_radix_prefix` say that the sign comes after the radix prefix; their examples and the code have it
  before, and a sign after the prefix is rejected (`C42_sign_after_prefix`).
* Parsing an over-long text with an invalid digit panics "number too large" instead of returning `InvalidDigit`.
  `C20_invalid_digit` says exactly when (`Overlong`, Spec/ParseLimit.lean): in radix `2^b` if the bits of a
  numeral of that length do not fit the longest buffer; in other radixes if one of the powers computed before the
  first digit is read is beyond the size limit. So among texts that are longer than any number that fits, some
  are rejected and some panic: on a 16-bit machine, 24576 exclamation marks in radix 36 give `InvalidDigit` and
  24577 of them panic.
* `extended_gcd`, and so the modular inverse, may panic "number too large" for arguments within a factor of two of the limit;
  it does for the two largest numbers (`C25_size_limit`, `C28_size_limit`), and it never does for two even numbers
  (`C25_ubig_even`, `C25_ibig_even`).
* `ring.from(x)` panics "number too large" if `x`, shifted by the spare bits of the modulus, does not fit (`Accepts`).
* Multiplication modulo a number of nearly maximal size panics "out of memory" on builds with a small `usize`: in the ring of the
  largest number it always does on five of the nine builds (`C27_mul_limit`), and never on the other four (`C27_mul_room`).
* `!(a) & …` on negative numbers of maximal size can give `-2^(MAX_LEN·W)`, and so "number too large".
* `UBig ^ negative primitive` and `UBig | negative primitive` panic "UBig result must not be negative".
* A reversed `UBig` range in `gen_range` panics with "negative UBig" before "Empty range" can be reported; an inclusive range
  whose number of elements does not fit panics "number too large".
* An assignment operator that panics leaves 0 in its left operand when that was taken out first (C48).
* A deserializer that announces a wrong `size_hint` makes the reader panic.
* Printing ends with a possibly empty `write_str`, so a sink can reject the text after receiving all of it (C53).
* `ubig!(… base R)` rejects inner underscores that the decimal form accepts (at run time).
* `memory.rs`: from a zero layout (alignment 1) not even an empty slice of words can be allocated; this never happens in the crate.
* The comment at `div/simple.rs:74` ("MAX is accurate") is not literally true: the estimate can still be too large by one, which the
  correction step then repairs.

## 7. Tests against wrong programs

`seeded/LOG.jsonl` records edits of the model in a scratch copy (wrong boundary, dropped carry, swapped argument, …), the
theorems that failed, and the theorems that were tightened.  Each edit was followed by a rebuild of everything; the log
names the theorems that reported an error first (usually lemmas about the edited function) and the property theorems
that could no longer be checked.  The edits:

- Rounds 1 to 4 and 8 to 10 (285 edits) were written by hand: typical mistakes in each part of the crate.  One survived:
  `r3-16` (C48), because the specification of what a caught panic leaves behind used a definition of the model.
  The specification got its own definition (`Instr.modifies` in Spec/Unwind.lean), and the same edit, repeated as `r4-33`,
  now fails.
- Rounds 5 and 6 were produced by a script that applies small edits (a comparison, a constant, a condition, the order of
  arguments or results, a dropped `+ 1`) at random places of the model, and that removes the count of steps from
  each place where steps are counted.  Edits that Lean rejects as ill-typed are not logged.  Some survived:
  - Edits that change no result of any public function, for example `<` for `<=` where both branches are right for equal
    lengths.  The log says why for each of them.
  - `r6-018` changed what a program is told about an inverse.  The crate's programs and the mathematical programs
    shared this definition, and only examples noticed.  The theorems `C39_variables`, `C49_variables` and `C74_variables`
    now say what the shared definitions do.
  - `r5-335` shifted a single word to the right by its own width.  The model computed `word / 2^n`, which is right for
    every `n`, while Rust uses the amount modulo the width.  The model of `shr_word`, `bit`, `set_bit` and `clear_bit` now
    does the same, and the edit fails (`r12-01` to `r12-04`).
  - Edits that forget to count a constant number of steps do not break an upper bound on the steps.  The exact totals in
    Tests/Steps.lean were added; all 137 edits of this kind change at least one of them.  (These are tests, not proofs.)

## 8. The crate's own tests

`lean/Verif/Tests` runs the crate's tests (`/repo/tests`, except `random.rs`), the unit tests inside `/repo/src` and the
examples of the documentation on the model: the same inputs and the expected results written by the crate's
authors, on 16, 32 and 64-bit words, evaluated by the kernel.  They are tests and not proofs: their purpose is to
show that the model computes what the program is known to compute.  Large inputs
(thousands of words, hundreds of iterations) are left out or made smaller; each comment says so.  All of them pass.
The expected floating-point bit patterns were computed with another implementation of IEEE 754.
