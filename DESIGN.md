# Formal model of distributed-vector-ole: design and trusted base

## Layout

* `lean/Verif/Basic.lean`: outcome monad, checked array access, loops.
* `lean/Verif/Net.lean`: two-party process calculus (FIFO channels + ideal OT), small-step semantics.
* `lean/Verif/Model/*.lean`: the code, function by function. Each definition cites file and lines.
* `lean/Verif/Spec/*.lean`: small independent specifications used in theorem statements.
* `lean/Verif/Proofs/*.lean`: lemmas.
* `lean/Verif/Props/*.lean`: the property theorems (named in `MANIFEST.json`) and, beside each,
  an `example` showing that a concrete non-trivial case meets the hypotheses.
* `seeded/LOG.jsonl`: mutation log.

## Trusted base

* **Lean 4.33 kernel.** Every theorem is checked by it; nothing is evaluated by compiled code
  (`native_decide` and `bv_decide` are not used; concrete cases use `decide` or `decide +kernel`).
* **Axioms.** The theorems depend on at most `propext`, `Classical.choice` and `Quot.sound`
  (`#print axioms`). None is added, and there is no `sorry`, `unsafe`, `implemented_by` or `opaque`.
* **Mathlib** is only used through its theorems, which the same kernel has checked.
* **The model is a faithful reading of the code.** This is the part that is not machine-checked. Each
  definition in `Model/` cites the lines it stands for, so that it can be compared with them. The
  definitions in `Net.lean` and `Basic.lean` describe the network and the meaning of C++ constructs
  (early return, checked indexing, loops).
* **The specifications** in `Spec/` and in the theorem statements say what the properties mean.

### What is modelled

| file | modelled | not modelled |
|------|----------|--------------|
| ggm_tree.{h,cpp} | all functions, including both `Create` paths, `XORBlocks`, level allocation, accessors, `Create(arity, ...)` with arbitrary random keys | failure of `AES_set_encrypt_key` |
| all_but_one_random_ot.{h,cpp}, internal/all_but_one_random_ot_internal.h | `Create`, both roles, single and batched, tree exchange, unpacking, parallel loops | the OT extension itself; benchmarking counters |
| spfss_known_index.{h,cpp} | `Create`, both roles, single and batched, parallel loops | |
| cuckoo_hasher.{h,cpp} | `Create`, `Hash`, `HashSimple` with its threads, `HashCuckoo`, `GetOptimalNumberOfBuckets` | the formulas for `bits_needed` and for the number of buckets are arbitrary functions in the protocols, and C67 and C68 are about them over the real numbers; the template argument of the inlined vectors |
| mpfss_known_indices.{h,cpp} | `Create`, `UpdateBuckets` with its cache, both roles, the unimplemented roles | |
| scalar_vector_gilboa_product.{h,cpp}, internal/gilboa_internal.h | `Create`, both roles, both kinds of OT, packing, `int` overflow of the number of OTs | the OT extension itself |
| distributed_vector_ole.{h,cpp} | everything: object state, precomputation, code generator, expansion, caches, both runs, narrowing to `int`, overflow of `int64_t` where user values enter | Eigen's expression templates (a product is the sum over the stored entries of a column) |
| aes_uniform_bit_generator.{h,cpp} | everything, including the state after exceptions | |
| gf128.{h,cpp} | both multiplications (the assembly as its `pclmulqdq` steps, and the portable loop), squares, inverse, conversions | printing, hashing, boost serialisation, `randomize` (arbitrary bits) |
| internal/scalar_helpers.h, internal/ntl_helpers.{h,cpp} | all conversions and checks for every type; thread-local caches and contexts | NTL's own arithmetic (a residue ring) |
| tests, benchmarks, experiments/ | what the tests check (C69) and the programs over a network (C70), see below | test code itself, measurements, printing |
| example/, build files | | not modelled (the example calls `RunReceiver` with two arguments, which this version does not have) |

Libraries: emp-ot (ideal OT), mpc_utils channels (FIFO queues; `sync` as an exchange of tokens),
boost serialisation (the receiver gets the object sent; the wrong kind of object is `ub`), OpenSSL
(AES is a function, `RAND_bytes` gives arbitrary bytes and does not fail), abseil, Eigen, NTL and the
standard library behave as documented. Where the standard leaves a choice to the compiler or library
(`MakeUint128(rng(), rng())`, `std::uniform_int_distribution`, iteration order of a hash set), the
choice is a parameter (`Lib`, `Rand.order`) over which the theorems quantify.

## Modelling conventions

* **Outcomes.** A C++ call is a function into `Out α = ok a | err code msg | throws msg | ub why | diverge`.
  `err` is an `mpc_utils::Status`; `ub` is undefined behaviour or a failed `assert`
  (out-of-bounds access, negative index, division by zero, ...); `diverge` is fuel exhaustion of a
  `while` loop. "The code is memory safe here" is therefore provable: the result is not `ub`.
* **Arrays** are lists, read and written with checked `rd`/`wr` (out of range = `ub`).
* **Integers.** API integers that can be negative are `Int`. Loop counters and sizes are `Nat`;
  where the code narrows to `int` (e.g. `int child` in `XORBlocks`) the model has an explicit
  bound check giving `ub`, so theorems carry the size bound as a hypothesis. Signed overflow is
  modelled where a caller can reach it (`int` in Gilboa's protocol, C56; `int64_t` batch sizes and the
  number of buckets, C36, C62); elsewhere sizes of 2^63 elements do not fit into memory.
* **Words.** Blocks, hashes, nonces, gf128 limbs and unsigned element types are `BitVec n`.
  `Model/Promotion.lean` repeats the products with C++'s promotion of small types to `int` (C52).
* **AES** is an arbitrary function `aes : key → block → block`; `AES_set_encrypt_key` does not fail.
  Only C73 is about AES itself (`Spec/AES.lean`, FIPS 197 on a little-endian machine).
* **Floating point** decisions (`ceil(log n / log a)`, the `bits_needed > 128` test, the bucket-count
  formula) are arbitrary functions of their integer inputs ("oracles") shared by both parties, so
  the theorems hold whatever rounding does. The statistical-security comparison of
  `CanBeHashedInto` is modelled exactly (`rem * 2^s < 2^h` over rationals) instead of in `double`.
* **Randomness** (RAND_bytes, NTL random, OT-extension output) is an argument, universally quantified.
  Statistical statements (C28, C61, C64) count the values of these arguments, i.e. they are about
  uniformly distributed ones. C71, C72 and C74 count functions in place of AES, C76 permutations, C77 both. C72 also models
  libstdc++'s `std::uniform_int_distribution` (`Model/Distribution.lean`); elsewhere it is arbitrary.
* **OT** (emp::SHOTExtension) is the ideal functionality: a rendezvous that hands the receiver
  `if c then m1 else m0`. Correlated OT = the same with `m0` arbitrary.
* **Parties** are processes; the network is two processes plus FIFO queues, stepping in any order.
  `Computes p q a b va vb` says that *every* interleaving ends with these results and these views;
  `Hangs p q a` that every interleaving ends with one party done and the other one waiting.
* **Objects that survive errors.** Member functions of `DistributedVectorOLE` are in a monad that
  keeps the state reached when an error is returned (`VM`), so that histories with failing calls can
  be stated. Ghost fields of the state (`log`, `sMade`, `rMade`, `sUsed`, `rUsed`) record what was
  produced and handed out; no code reads them.
* **Element types** are an abstract commutative ring with the `ScalarHelper` operations
  (`class Scalar`), instantiated at uint8/16/32/64/128, gf128 and `ZMod p` (zz_p, ZZ_p), and at
  `int32_t` for the negative results.
* **The number of buckets** is also modelled over the real numbers (`Model/Buckets.lean`). The link to
  the `double`s of the code is the hypothesis `Faithful`: a relative error of at most 2^-40.
* **OpenMP** loops: any interleaving of the steps of the iterations (`Model/Parallel.lean`);
  HashSimple's chunks: arbitrary contiguous chunks. For NTL's moduli (`Model/Contexts.lean`, C66) the
  thread with number `i` of a team is the same in consecutive regions of a call, and Eigen's sparse
  product may distribute columns over such a team.

## Plan per property

| id | modelled | proof |
|----|----------|-------|
| C01 | `GGM.create` = AllocateLevels + ExpandSubtree with checked writes | loop invariants; result equals recursively specified node values |
| C02 | `GGM.getSiblingWiseXOR`, `xorBlocks` | loop invariant; spec = XOR over indices with given residue |
| C03 | `GGM.createFromXor` | invariant over levels: off-path nodes correct, path and not-yet-known nodes zero |
| C04 | same | two-run equality |
| C05 | same, `getValueAtNode` | case analysis |
| C06 | same | false of the code: concrete `ub` witnesses; `_partial` theorem under the documented contract |
| C07 | `ROT.runSender/runReceiver` as processes | joint execution + C03 with binary digits = choice bits |
| C08 | same | sender process term and its inputs do not mention indices; joint-run equality |
| C09 | same | receiver view as function of co-path nodes |
| C10 | `SPFSS.*` processes | joint execution + ring algebra |
| C11 | same | bijection statement on the message |
| C12 | same | process reduces to immediate return |
| C13 | `Cuckoo.hash` | direct |
| C14 | `Cuckoo.hashSimple` | induction on inputs |
| C15 | chunked version | any contiguous chunking gives the sequential result |
| C16 | `Cuckoo.hashCuckoo` with eviction loop | placement invariant |
| C17 | same | totality/no-ub/outcome classification |
| C18 | `MPFSS.*` processes with state | joint execution, C10, C14, C16 |
| C19 | `MPFSS.updateBuckets` | invariant over op lists |
| C20 | same | false of the code: witnesses for `= size` and negative; partial: `> size` is rejected |
| C21 | same | general sum theorem; duplicates-accepted witness |
| C22 | same | bijection |
| C23 | `Gilboa.*` processes | joint execution, packing lemma, bit decomposition |
| C24 | `spanToBlock`, `blockToSpan` | induction on span, Nat arithmetic base 2^w |
| C25 | signed `ToUint128` | false of the code: witness |
| C26 | `Gilboa.*` | case analysis |
| C27 | `Scalar` instances | per type |
| C28 | `canBeHashedInto` | counting argument for h = 128; witness of falsity for h < 128 |
| C29-C36 | `VOLE.*`: full object state, cache, expansion, precompute, as processes | invariant over op histories with joint execution |
| C31 | provenance-tagged instance of the same polymorphic cache code | invariant: tags distinct |
| C37 | `VOLE.run` on `Int` sizes | `size = 0` after precompute and negative sizes are witnesses of falsity; rest proved |
| C38 | code generator from RNG stream | equality; evaluation-order parameter and witness |
| C39 | failure states of `expandReceiver` | witness / partial |
| C40-C43 | `RNG` state machine | invariant; odd buffer witness; post-exception witness |
| C44-C47 | `GF128` both multiplications | embedding into `AdjoinRoot (X^128+X^7+X^2+X+1)` over `ZMod 2`; order computation by kernel evaluation |
| C48 | cache state machine | invariant |
| C49 | `Net` | diamond property |
| C50 | processes | deadlock witnesses (false in general), partial |
| C51 | `parFor` | permutation invariance |
| C52 | checked multiplication with integer promotion | witness for uint16; proof for the Gilboa path and other widths |
| C53 | two words vs. 128-bit block | bit-vector lemma |
| C54 | `create` functions | case analysis, joint run |
| C55 | `Cuckoo.hashCuckoo` | false of the code: two inputs with the same first bucket always fail; partial for distinct first choices |
| C56 | `Gilboa.numOTs` with `int` | witness of overflow; exact bound |
| C57 | `Gilboa.*` | bijection of the randomness that maps one view to the other |
| C58 | `Gilboa.*` | the vector provider receives nothing |
| C59 | `VOLE.precomputeCommon` and histories | witness of a run with an empty generator; invariant for histories without refused precomputations |
| C60 | all of `VOLE` | joint execution of whole histories; the probabilistic steps are hypotheses |
| C61 | `ROT.sendTrees`, code generator | hybrid argument over the leaves; witness for wrapped sums |
| C62 | `Cuckoo.create`, `getOptimalNumberOfBuckets` | case analysis |
| C63 | `MPFSS.*` | process reduces to immediate return |
| C64 | `Gilboa.*` with correlated OT | hybrid argument over all masks; witnesses of larger advantages |
| C65 | `Create`, `toInt64` | reduction of the first calls to the conversion; witness NaN |
| C66 | `Contexts.*` | invariant: how many threads have the caller's modulus |
| C67 | `estimate3`, `search2` over the reals | bounds on the error function (an integral) and on logarithms |
| C68 | `depth`, `bitsNeeded` over the reals; `Create` followed by a history | bounds on logarithms; composition of C54, C67, C29 and C60 |
| C69 | the calls of the unit tests, see below | instances of the other claims with the formulas of C67 and C68 |
| C70 | `Clients.*`: experiments and benchmarks | joint execution of the loops of both threads, by induction on the number of iterations; witness of a deadlock |
| C71 | `hash`, the test of the number of bits | counting functions from blocks to blocks with prescribed values; union bound over coinciding queries; hybrid argument for the reduction |
| C72 | the sampling loops, libstdc++'s distribution | words of the generator are independent under a random function; a sampling loop that does not end has all its words in a small set (union bound over that set) |
| C73 | `hashCuckoo`, the random generator, AES itself | injectivity round by round; the test is run by the kernel on arrays packed into numbers, which simulate the model's arrays |
| C74 | tests of the random generator, overflow of cuckoo hashing | tail of a sum of independent words by the exponential moment; the generating function of the number of empty buckets, by induction on the throws |
| C75 | all protocols, what they send | a rule for each construct of the process language; coherence of the buckets after any run; sum of tree depths by bounding `log2 x` by `c + x / 2^c` |
| C76 | uses of AES | the proofs of C71, C72 and C74 are for any family of functions in which prescribed values are rare; for permutations by counting, with Bernoulli's inequality for the factor 4/3 |
| C77 | HashCuckoo, number of buckets | false: Bonferroni's inequality for the pairs of inputs that have only one bucket between them; upper bound by the birthday bound |
| C78 | programs with several objects | composition of the calls of each object (C29, C60, C68) with an invariant per object |
| C79 | one party of each protocol, any peer | a relation `Reads` between a process, the messages it receives and its result, with arbitrary OT results; induction on the process for sequences; for the vector OLE a list of what the party wants to receive next (`Spec/PeerVOLE.lean`), carried through the bootstrapping and the loops; false where vectors are received with a length that is not checked |
| C80 | UpdateBuckets on any object | cases of the code; C19 (a cache is never stale) for the histories |

## The unit tests

What the tests check, for all arguments in a range that includes those of the test. "Luck" marks a
hypothesis that random choices go well. Names without a number are claims in `properties.jsonl`.

| Test | Theorem |
|---|---|
| gf128 `SageTests`, `SimpleTest` | `GF128.C69_sage` (both implementations), `C69_inverse` |
| ggm_tree `Constructor`, `Expansion` | `GGM.C69_constructor`, with the values in C01 |
| ggm_tree `Constructor2` | `GGM.C69_constructor2`. The test compares the leaves of `tree2` with themselves; the theorem compares the two trees |
| ggm_tree `GetSiblingXOR` | C02 |
| ggm_tree, messages (9 tests) | `GGM.C69_messages`, `C69_getValue` |
| all_but_one_random_ot `TestSmallVectors` | `Tests.C69_rot` |
| all_but_one_random_ot, messages (6 tests) | `Tests.C69_rot_messages`, C54 |
| spfss_known_index (2 tests) | `Tests.C69_spfss`, `C69_spfss_null` |
| gilboa `TestSmallVectors`, `TestConversions` | `Tests.C69_gilboa`, `C69_conversions` |
| gilboa, messages (5 tests) | `Tests.C69_gilboa_messages`, C54 |
| cuckoo_hasher `TestSimpleHashing` | C14 |
| cuckoo_hasher `TestGetOptimalNumberOfBuckets` | `Cuckoo.C69_buckets` |
| cuckoo_hasher, messages (5 tests) | `Cuckoo.C69_messages` |
| cuckoo_hasher `TestCuckooHashing` | C73 (with AES itself) |
| cuckoo_hasher `TestCuckooHashingOverflow` | C74 (with a random function in place of AES), C76 (permutation) |
| mpfss_known_indices, vectors (2 tests) | `Tests.C69_mpfss` (luck: the indices can be hashed) |
| mpfss_known_indices, messages (5 tests) | `Tests.C69_mpfss_messages`, `C69_mpfss_repeating` |
| distributed_vector_ole (2 tests) | `Tests.C69_vole_small`, `C69_vole_large` (luck), `C69_vole_types` |
| aes_uniform_bit_generator (3 tests) | C74 (with a random function in place of AES), C76 (permutation); C40 says what the words are |

## Experiments and benchmarks

`Model/Clients.lean` has the programs that use the library over a network (C70). The two threads of a
benchmark are the two parties; starting a thread is a message on a channel of its own. Time and
traffic are not measured there (C75 is about the traffic of the protocols). The benchmarks of trees, hashing and the random generator call
functions whose claims are C01, C14, C16 and C40; they have no claim of their own.

`example/example.cpp` was written for another version of the interface and is not modelled.

## Where the code does not have the property

For each of these the negation is proved with a concrete witness (theorems ending in `_false`, or
named in the note in `MANIFEST.json`), and a `_partial` theorem says what holds instead.

1. C06: `CreateFromSiblingWiseXOR` reads out of bounds for inputs that its checks accept.
2. C20, C21: MPFSS accepts an index equal to the size, negative indices, and repeated indices.
3. C28, C64: `CanBeHashedInto` checks the wrong remainder for hashes shorter than 128 bits, and
   reduces moduli above 2^128. Gilboa's protocol relies on it for correlated OT.
4. C61: the number of leaves is summed up in an `int`.
5. C25, C27: signed element types.
6. C52: products of `uint16_t` overflow `int`.
7. C41, C42: odd buffer sizes of the random generator; calls after its exception.
8. C38: unspecified order of evaluation in `MakeUint128(rng(), rng())`.
9. C37: sizes 0 and below after precomputation.
10. C39: an expansion that fails leaves the receiver's cache enlarged by uninitialised elements.
11. C35, C59: objects that change roles; a refused precomputation leaves an empty generator.
12. C36: the bootstrap does not fit its row if the number of buckets is large; overflow near 2^63.
13. C50: an error on one side leaves the other side waiting, at every layer.
14. C54, C65: NaN and huge values are accepted as a statistical security; converting the estimated
    number of buckets to `int64_t` is then undefined behaviour.
15. C55: `HashCuckoo`, called with two inputs, fails if they have the same first bucket.
16. C56: `int` overflow for long vectors in Gilboa's protocol.
17. C70: the benchmark of the MPFSS hangs: `Create` waits for a thread that is started after it.
18. C77: the number of buckets is too small for the promised failure probability. The hash functions of an
    input need not be different, so two inputs can have only one bucket between them. For 40 bits and
    each of the parameters this alone makes hashing fail with a probability of more than 2^-36 (with a
    random function or permutation in place of AES), and the other party then waits forever: already in the first run of
    two new `DistributedVectorOLE` objects.
19. C79: the length of a received vector is never checked. A peer that sends a shorter one makes the index
    provider of the SPFSS and of the MPFSS, and so the sender of the vector OLE, read out of bounds (spfss_known_index.h:160-166), and a wrong length makes
    the value provider of the MPFSS and the receiver's precomputation combine Eigen vectors of different
    lengths (mpfss_known_indices.h:152-154, distributed_vector_ole.h:317-318): an assertion failure, or a
    read out of bounds with `NDEBUG`. `Create`, the random OT and the Gilboa product are safe with any peer; with vectors
    of the right length so is everything, whatever their contents and the oblivious transfers. (That a received vector takes the length in
    the message is how mpc_utils serialises; it is not in this repository.)

Computational security (pseudorandomness of AES, LPN) cannot be expressed as a theorem about this
code without cryptographic assumptions; it is not claimed. Only perfect and statistical statements
are (C08, C09, C11, C22, C57, C58 and C28, C61, C64, C71, C72, C74, C76, C77).
