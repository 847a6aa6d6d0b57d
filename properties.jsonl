{"id": "C01", "title": "GGM expansion follows the published PRG recurrence", "statement": "After GGMTree::Create(num_leaves, seed, keys) succeeds, GetValueAtNode(0,0) is the seed and for every stored node (l+1,i) GetValueAtNode(l+1,i) = AES(keys[i mod arity], p) xor p with p = GetValueAtNode(l, i div arity). The last level has exactly num_leaves nodes, the first exactly one, and no out-of-bounds access happens.", "quantifier": "every arity >= 2, every num_leaves in [1,2^31), every seed, every key list, every block cipher", "why_tests_cant": "ggm_tree_test compares leaves for arity < 10 and num_leaves < 50 with one seed; partially filled levels depend on divisibility patterns at all depths.", "anchors": ["distributed_vector_ole/ggm_tree.cpp:GGMTree::Create", "distributed_vector_ole/ggm_tree.cpp:GGMTree::ExpandSubtree", "distributed_vector_ole/ggm_tree.cpp:AllocateLevels"]}
{"id": "C02", "title": "GetSiblingWiseXOR is the per-level XOR of j-th children", "statement": "For every level l < num_levels-1 and sibling j < arity, GetSiblingWiseXOR()[l][j] is the XOR of GetValueAtNode(l+1,i) over all stored i with i mod arity = j; the result has num_levels-1 rows of length arity.", "quantifier": "every tree returned by Create, every level, every sibling position", "why_tests_cant": "one tree shape (arity 8, 2^15 leaves, full levels) is tested; ragged last batches are not.", "anchors": ["distributed_vector_ole/ggm_tree.cpp:GGMTree::GetSiblingWiseXOR", "distributed_vector_ole/ggm_tree.cpp:XORBlocks"]}
{"id": "C03", "title": "A punctured tree equals the full tree off the missing path and is zero on it", "statement": "CreateFromSiblingWiseXOR(arity, num_leaves, missing, full.GetSiblingWiseXOR(), full.keys()) succeeds for any tree full returned by Create and 0 <= missing < num_leaves; every node off the root-to-missing path equals the node of full, every node on the path is 0.", "quantifier": "every arity, number of leaves, seed, keys, missing index and node", "why_tests_cant": "the test compares tree2 with itself (ggm_tree_test.cpp:87 reads tree2, not tree_), so it does not check this at all.", "anchors": ["distributed_vector_ole/ggm_tree.cpp:GGMTree::CreateFromSiblingWiseXOR"]}
{"id": "C04", "title": "Punctured reconstruction ignores the XOR entries on the missing path", "statement": "Two calls of CreateFromSiblingWiseXOR that differ only in the entries sibling_wise_xors[l][d_l], d_l being the child position of the missing path at level l+1, return the same tree.", "quantifier": "all inputs and all values of the ignored entries", "why_tests_cant": "needs a universally quantified pair of inputs.", "anchors": ["distributed_vector_ole/ggm_tree.cpp:GGMTree::CreateFromSiblingWiseXOR", "distributed_vector_ole/ggm_tree.h:GGMTree"]}
{"id": "C05", "title": "GGMTree argument validation", "statement": "Create returns INVALID_ARGUMENT iff arity < 2 or num_leaves <= 0. GetValueAtNode returns a value iff 0 <= level < num_levels and 0 <= node < level_size(level), else INVALID_ARGUMENT. CreateFromSiblingWiseXOR returns INVALID_ARGUMENT for arity < 2, num_leaves <= 0, missing_index >= num_leaves, rows of wrong length, too few rows or empty keys.", "quantifier": "all integer arguments including negative ones", "why_tests_cant": "tests probe one value per error branch.", "anchors": ["distributed_vector_ole/ggm_tree.cpp:GGMTree::Create", "distributed_vector_ole/ggm_tree.cpp:GGMTree::GetValueAtNode", "distributed_vector_ole/ggm_tree.cpp:GGMTree::CreateFromSiblingWiseXOR"]}
{"id": "C06", "title": "CreateFromSiblingWiseXOR is memory safe on every argument", "statement": "CreateFromSiblingWiseXOR either returns an error status or a tree; it never reads or writes out of bounds or fails an assertion, whatever missing_index, number of XOR rows and number of keys it is given.", "quantifier": "all arguments", "why_tests_cant": "undefined behaviour need not show up in a test run; negative indices, surplus rows and keys.size() != arity are never tried.", "anchors": ["distributed_vector_ole/ggm_tree.cpp:GGMTree::CreateFromSiblingWiseXOR"]}
{"id": "C07", "title": "All-but-one random OT: both parties agree everywhere except at the chosen index", "statement": "If sender calls RunSenderBatched(outputs) and receiver RunReceiverBatched(indices, outputs') with the same sizes and valid indices, both return OK and for every batch entry i and position k != indices[i], sender and receiver hold the same element; empty outputs are left alone.", "quantifier": "every batch, size, index, randomness of the sender, element type, and every interleaving of the two parties", "why_tests_cant": "tests run single-entry batches of size < 15 under one schedule.", "anchors": ["distributed_vector_ole/all_but_one_random_ot.h:RunSenderBatched", "distributed_vector_ole/all_but_one_random_ot.h:RunReceiverBatched", "distributed_vector_ole/all_but_one_random_ot.h:SendTrees", "distributed_vector_ole/all_but_one_random_ot.cpp:ReceiveTrees"]}
{"id": "C08", "title": "The OT sender's view does not depend on the receiver's indices", "statement": "With an ideal 1-out-of-2 OT, every message the all-but-one sender receives or sends, and its outputs, are the same whatever indices the receiver uses.", "quantifier": "every pair of index vectors of the same sizes, all randomness", "why_tests_cant": "independence of two runs cannot be observed from one run.", "anchors": ["distributed_vector_ole/all_but_one_random_ot.h:SendTrees", "distributed_vector_ole/all_but_one_random_ot.cpp:ReceiveTrees"]}
{"id": "C09", "title": "The OT receiver only learns co-path seeds", "statement": "With an ideal 1-out-of-2 OT, everything the all-but-one receiver obtains is a function of the keys and of the tree nodes hanging off the path to its index; in particular it never obtains an OT message that includes a node on that path.", "quantifier": "every tree, index and pair of seeds that agree off the path", "why_tests_cant": "information-flow statement over pairs of executions.", "anchors": ["distributed_vector_ole/all_but_one_random_ot.cpp:ReceiveTrees", "distributed_vector_ole/all_but_one_random_ot.h:SendTrees"]}
{"id": "C10", "title": "SPFSS outputs are additive shares of a point function", "statement": "If the value provider calls RunValueProviderBatched(a, o0) and the index provider RunIndexProviderBatched(b, idx, o1) with matching sizes and valid indices, then for each j and k: o0[j][k]+o1[j][k] = a[j]+b[j] if k = idx[j], else 0.", "quantifier": "every batch, size (including empty entries), index, values, randomness, element ring, interleaving", "why_tests_cant": "tests use batch size 1, sizes < 15 and fixed shares 23, 42.", "anchors": ["distributed_vector_ole/spfss_known_index.h:RunValueProviderBatched", "distributed_vector_ole/spfss_known_index.h:RunIndexProviderBatched"]}
{"id": "C11", "title": "SPFSS: the value provider's message is masked by the missing leaf", "statement": "In an SPFSS run over a non-empty entry the only message sent by the value provider outside the OT is its share plus the sum of its random vector; for every candidate share there is exactly one value of the leaf the index provider is missing that explains the message it saw.", "quantifier": "all shares, all vectors, all indices", "why_tests_cant": "a perfect-hiding statement quantifies over all masks.", "anchors": ["distributed_vector_ole/spfss_known_index.h:RunValueProviderBatched"]}
{"id": "C12", "title": "SPFSS and ROT argument errors are reported before any communication", "statement": "Mismatched batch sizes, or (on the receiver/index side) an index that is negative or >= size of a non-empty entry, return INVALID_ARGUMENT and no message is sent or received; all other index arguments are accepted.", "quantifier": "all argument tuples", "why_tests_cant": "tests sample one value per branch and do not look at the channel.", "anchors": ["distributed_vector_ole/spfss_known_index.h", "distributed_vector_ole/all_but_one_random_ot.h:RunReceiverBatched", "distributed_vector_ole/all_but_one_random_ot.h:RunReceiver"]}
{"id": "C13", "title": "Hash returns one bucket below num_buckets per hash function and depends only on seed, element and num_buckets", "statement": "Hash(inputs, n) with n > 0 returns for every input num_hash_functions bucket numbers, each in [0,n); equal elements get equal rows whatever else is in the input. n <= 0 gives INVALID_ARGUMENT.", "quantifier": "all inputs, seeds, numbers of buckets and hash functions", "why_tests_cant": "tests never inspect Hash directly.", "anchors": ["distributed_vector_ole/cuckoo_hasher.h:CuckooHasher::Hash", "distributed_vector_ole/cuckoo_hasher.cpp:HashToBucket"]}
{"id": "C14", "title": "HashSimple puts each input into exactly its hash buckets, in ascending order", "statement": "On success bucket b of HashSimple(inputs, n) is sorted and contains index i exactly as many times as i's hash row contains b; hence every index occurs num_hash_functions times overall and bucket sizes sum to num_hash_functions * inputs.size().", "quantifier": "all inputs, seeds, n", "why_tests_cant": "tests check counts and sortedness for sizes < 1000 with seed -1234.", "anchors": ["distributed_vector_ole/cuckoo_hasher.h:CuckooHasher::HashSimple"]}
{"id": "C15", "title": "HashSimple does not depend on the number of OpenMP threads", "statement": "The result of HashSimple is the same for every number of threads and every way the static schedule cuts the inputs into consecutive chunks.", "quantifier": "every thread count and chunking", "why_tests_cant": "tests run with one thread count.", "anchors": ["distributed_vector_ole/cuckoo_hasher.h:CuckooHasher::HashSimple"]}
{"id": "C16", "title": "HashCuckoo places every input exactly once, in one of its own buckets", "statement": "If HashCuckoo(inputs, n) returns OK, the result has length n, every entry is -1 or a valid index, every index occurs exactly once, and index i sits in a bucket that is one of the buckets Hash assigns to inputs[i].", "quantifier": "all inputs (including repeated ones), seeds, n, numbers of hash functions", "why_tests_cant": "tests check uniqueness for a fixed seed and do not check that the bucket is one of the element's own.", "anchors": ["distributed_vector_ole/cuckoo_hasher.h:CuckooHasher::HashCuckoo"]}
{"id": "C17", "title": "HashCuckoo terminates, is memory safe, and fails only as documented", "statement": "HashCuckoo always returns. It returns INVALID_ARGUMENT exactly for one hash function, n <= 0, inputs.size() > n or too many bits needed; otherwise OK or INTERNAL 'maximum number of tries exhausted'. It never indexes out of bounds. If every first-choice bucket is distinct it returns OK.", "quantifier": "all arguments", "why_tests_cant": "termination and absence of UB over all hash patterns.", "anchors": ["distributed_vector_ole/cuckoo_hasher.h:CuckooHasher::HashCuckoo"]}
{"id": "C18", "title": "MPFSS (Vector-OLE variant) outputs are additive shares of the multi-point function", "statement": "If both parties hold a VOLE correlation w = u x + v of length NumBuckets(t) and run RunValueProviderVectorOLE(x, t, w, o0) and RunIndexProviderVectorOLE(y, indices, u, v, o1) with equal output sizes, distinct indices in range and both return OK, then o0[k]+o1[k] = x*y[i] if k = indices[i] for some i, else 0.", "quantifier": "every output size, number of indices, indices, y, x, u, v, hash seed, randomness, element ring, interleaving", "why_tests_cant": "tests use consecutive indices 0..t-1, constant y and x = 2.", "anchors": ["distributed_vector_ole/mpfss_known_indices.h:RunValueProviderVectorOLE", "distributed_vector_ole/mpfss_known_indices.h:RunIndexProviderVectorOLE"]}
{"id": "C19", "title": "MPFSS bucket cache is transparent", "statement": "Whatever sequence of UpdateBuckets and Run calls (successful or failing) came before, a call uses the bucket table a fresh object would compute for its own output size and number of indices.", "quantifier": "every call history", "why_tests_cant": "tests exercise a handful of histories; stale-cache bugs need specific sequences.", "anchors": ["distributed_vector_ole/mpfss_known_indices.cpp:UpdateBuckets"]}
{"id": "C20", "title": "MPFSS rejects indices outside the output", "statement": "RunIndexProviderVectorOLE returns INVALID_ARGUMENT if some index is negative or >= output.size().", "quantifier": "all index lists", "why_tests_cant": "tests never pass an out-of-range index; the boundary value passes validation.", "anchors": ["distributed_vector_ole/mpfss_known_indices.h:RunIndexProviderVectorOLE"]}
{"id": "C21", "title": "MPFSS rejects repeated indices", "statement": "RunIndexProviderVectorOLE returns INVALID_ARGUMENT 'All `indices` must be unique' whenever two indices coincide; if it returns OK on in-range indices, position k of the shared vector is the sum of x*y[i] over all i with indices[i] = k.", "quantifier": "all index lists", "why_tests_cant": "whether a duplicate is detected depends on the random hash seed.", "anchors": ["distributed_vector_ole/mpfss_known_indices.h:RunIndexProviderVectorOLE"]}
{"id": "C22", "title": "MPFSS: the index provider's message is a one-time pad", "statement": "The only message the index provider sends outside the OT is u plus a vector determined by y and the indices; for any two inputs accepted with the same sizes there is a bijection of masks u under which the messages coincide.", "quantifier": "all inputs and masks", "why_tests_cant": "perfect hiding quantifies over all masks.", "anchors": ["distributed_vector_ole/mpfss_known_indices.h:RunIndexProviderVectorOLE"]}
{"id": "C23", "title": "Gilboa product outputs are additive shares of x*y", "statement": "If the vector provider calls RunVectorProvider(y, o0) and the value provider RunValueProvider(x, o1) with |o1| = |y|, both return OK and o0[k]+o1[k] = x*y[k] for every k.", "quantifier": "every length (also not divisible by the packing factor) for which the number of OTs fits an int, every x and y, all OT randomness, every unsigned integer width 8..128, gf128, every modulus 2 <= p <= 2^128, both OT variants, every interleaving", "why_tests_cant": "tests use y = 0..19, x = -42 and a few moduli.", "anchors": ["distributed_vector_ole/scalar_vector_gilboa_product.h:RunVectorProvider", "distributed_vector_ole/scalar_vector_gilboa_product.h:RunValueProvider", "distributed_vector_ole/internal/gilboa_internal.h"]}
{"id": "C24", "title": "OT block packing round-trips", "statement": "EMPBlockToVector(SpanToEMPBlock(v, m)) returns v[i]*m for every position i < v.size() and 0 beyond, for every span of at most 16/SizeOf elements.", "quantifier": "all unsigned types and moduli, all spans, all multipliers", "why_tests_cant": "tests use five values and two moduli with full spans of equal elements.", "anchors": ["distributed_vector_ole/internal/gilboa_internal.h:SpanToEMPBlock", "distributed_vector_ole/internal/gilboa_internal.h:EMPBlockToSpan"]}
{"id": "C25", "title": "Every integer type accepted by ScalarHelper multiplies correctly under Gilboa", "statement": "The Gilboa product is correct for every type T with std::numeric_limits<T>::is_integer, including signed ones.", "quantifier": "all integer types, all values", "why_tests_cant": "only unsigned types are instantiated in tests.", "anchors": ["distributed_vector_ole/internal/scalar_helpers.h:ScalarHelper", "distributed_vector_ole/internal/gilboa_internal.h:SpanToEMPBlock"]}
{"id": "C26", "title": "Gilboa argument validation", "statement": "RunVectorProvider returns INVALID_ARGUMENT iff |y| != |output| or elements are longer than 16 bytes, RunValueProvider iff elements are longer than 16 bytes (or y_len < 0), before any communication.", "quantifier": "all argument tuples, all moduli", "why_tests_cant": "tests sample one value per branch.", "anchors": ["distributed_vector_ole/scalar_vector_gilboa_product.h"]}
{"id": "C27", "title": "Scalar bit decomposition reconstructs the value", "statement": "For every supported unsigned type or modulus, x = sum over k < 8*SizeOf of GetBit(x,k)*SetBit(k), ToUint128(x) < 2^(8*SizeOf) and FromUint128(ToUint128(x)) = x; FromUint128 truncates / reduces.", "quantifier": "all values, all widths, all moduli", "why_tests_cant": "exhaustive only for 8-bit types.", "anchors": ["distributed_vector_ole/internal/scalar_helpers.h"]}
{"id": "C28", "title": "CanBeHashedInto guarantees the promised statistical security", "statement": "If CanBeHashedInto(s, h) returns true then, for h-bit uniform hashes reduced with FromUint128, every set of outcomes has probability at most 2^-s above its probability under the uniform distribution.", "quantifier": "all moduli, all s, all h in 1..128", "why_tests_cant": "a statement about probabilities over 2^h hash values.", "anchors": ["distributed_vector_ole/internal/scalar_helpers.h:CanBeHashedInto"]}
{"id": "C29", "title": "Vector-OLE correlation holds for every call history", "statement": "For every sequence of matching calls (PrecomputeSender/PrecomputeReceiver with equal batch sizes, RunSender/RunReceiver with equal sizes) that return OK on both sides, each Run pair returns u, v, w, delta with w[k] = u[k]*delta + v[k] for every k.", "quantifier": "every history of sizes and batch sizes, every delta, all randomness, element ring, interleaving", "why_tests_cant": "tests run three small sizes and one large size.", "anchors": ["distributed_vector_ole/distributed_vector_ole.h:RunSender", "distributed_vector_ole/distributed_vector_ole.h:RunReceiver", "distributed_vector_ole/distributed_vector_ole.h:ExpandSender", "distributed_vector_ole/distributed_vector_ole.h:ExpandReceiver"]}
{"id": "C30", "title": "Run returns vectors of exactly the requested length", "statement": "RunSender(size) and RunReceiver(size) with size >= 1 that return OK return vectors of length size.", "quantifier": "every history, every size", "why_tests_cant": "cache states reachable after arbitrary histories are unbounded.", "anchors": ["distributed_vector_ole/distributed_vector_ole.h:RunSender", "distributed_vector_ole/distributed_vector_ole.h:RunReceiver"]}
{"id": "C31", "title": "No correlation is ever used twice", "statement": "Every generated VOLE element is handed out at most once: it is returned to the caller at most once, and an element used as an expansion or MPFSS seed is never returned to the caller.", "quantifier": "every history of calls", "why_tests_cant": "needs provenance tracking over unbounded histories.", "anchors": ["distributed_vector_ole/distributed_vector_ole.h:GetSenderCached", "distributed_vector_ole/distributed_vector_ole.h:GetReceiverCached", "distributed_vector_ole/distributed_vector_ole.h:RunSender"]}
{"id": "C32", "title": "delta is stable between precomputations and is the requested one", "statement": "All ReceiverResults between two PrecomputeReceiver calls carry the same delta, equal to the one passed to the last PrecomputeReceiver(batch, delta).", "quantifier": "every history", "why_tests_cant": "tests check delta against a single precomputation.", "anchors": ["distributed_vector_ole/distributed_vector_ole.h:PrecomputeReceiver", "distributed_vector_ole/distributed_vector_ole.h:GetReceiverCached"]}
{"id": "C33", "title": "Run terminates and expands the minimal number of times", "statement": "If batch_size ends up positive, RunSender(size)/RunReceiver(size) return after finitely many expansions; the number of expansions is ceil((size - cached)/batch_size) when size exceeds the cache, else 0.", "quantifier": "every size, cache content, batch size", "why_tests_cant": "a loop bound over all states.", "anchors": ["distributed_vector_ole/distributed_vector_ole.h:RunSender", "distributed_vector_ole/distributed_vector_ole.h:RunReceiver", "distributed_vector_ole/distributed_vector_ole.h:PrecomputeSender"]}
{"id": "C34", "title": "Sender and receiver caches stay in lock step", "statement": "After any matching history both parties have the same number of cached elements, the same seed sizes, batch size and noise parameter and identical code generators, so neither side performs an expansion the other does not.", "quantifier": "every history", "why_tests_cant": "desynchronisation would appear only for particular size sequences.", "anchors": ["distributed_vector_ole/distributed_vector_ole.h"]}
{"id": "C35", "title": "Sanity checks on the code generator never fire in matching histories", "statement": "In matching histories ExpandSender/ExpandReceiver never return INTERNAL 'Both seeds must have the same size' or 'Code generator has the wrong dimensions', and the MPFSS seed always has NumBuckets(num_noise_indices) elements.", "quantifier": "every history", "why_tests_cant": "invariant over all reachable states.", "anchors": ["distributed_vector_ole/distributed_vector_ole.h:ExpandSender", "distributed_vector_ole/distributed_vector_ole.h:ExpandReceiver", "distributed_vector_ole/distributed_vector_ole.h:PrecomputeCommon"]}
{"id": "C36", "title": "Precompute never exceeds the largest supported expansion and leaves a usable batch size", "statement": "After PrecomputeSender/Receiver(b) with b >= 1, the working batch size is min(b, 10616092 - seed sizes), every expansion output fits the parameter row it is run with, and batch size is at least 1 whenever the bucket counts are below 10027932.", "quantifier": "every batch size, every bucket-count function", "why_tests_cant": "boundary between parameter rows depends on batch size and statistical security.", "anchors": ["distributed_vector_ole/distributed_vector_ole.cpp", "distributed_vector_ole/distributed_vector_ole.h:PrecomputeSender"]}
{"id": "C37", "title": "Run rejects non-positive sizes", "statement": "RunSender(size) and RunReceiver(size) return INVALID_ARGUMENT for size <= 0 (negative sizes never cause undefined behaviour).", "quantifier": "all sizes, both before and after precomputation", "why_tests_cant": "tests never pass size <= 0.", "anchors": ["distributed_vector_ole/distributed_vector_ole.h:RunSender", "distributed_vector_ole/distributed_vector_ole.h:GetSenderCached"]}
{"id": "C38", "title": "Both parties derive the same code generator from the shared seed", "statement": "After PrecomputeCommon both parties hold the same sparse matrix with at most 10 nonzeros per column and rows below the seed size.", "quantifier": "every seed, size, and every conforming compiler on either side", "why_tests_cant": "tests run both parties from one binary.", "anchors": ["distributed_vector_ole/distributed_vector_ole.h:PrecomputeCommon"]}
{"id": "C39", "title": "A failed receiver expansion does not leave bogus elements behind", "statement": "If an expansion fails on the receiver side, later RunReceiver calls never return elements that were not produced by a successful expansion.", "quantifier": "every failure point of an expansion", "why_tests_cant": "needs fault injection at each failure point.", "anchors": ["distributed_vector_ole/distributed_vector_ole.h:ExpandReceiver"]}
{"id": "C40", "title": "AESUniformBitGenerator outputs AES in counter mode", "statement": "The n-th call (n = 0,1,...) after seeding returns 64-bit word n mod 2 of AES(key, nonce + n div 2), for every even buffer size, where key and nonce are the first and second 16 bytes of the seed.", "quantifier": "every n below the reseed limit, every seed, every even buffer size", "why_tests_cant": "tests check only that bits look random.", "anchors": ["distributed_vector_ole/aes_uniform_bit_generator.cpp:operator()", "distributed_vector_ole/aes_uniform_bit_generator.cpp:seed"]}
{"id": "C41", "title": "The generated stream does not depend on the buffer size", "statement": "Two generators with the same seed return the same stream whatever buffer sizes they were created with.", "quantifier": "all pairs of buffer sizes, all seeds", "why_tests_cant": "tests use only the default buffer size.", "anchors": ["distributed_vector_ole/aes_uniform_bit_generator.cpp:Create", "distributed_vector_ole/aes_uniform_bit_generator.cpp:operator()"]}
{"id": "C42", "title": "The generator stops at the reseed interval", "statement": "At most 2*2^48 words are returned between two seedings; further calls throw.", "quantifier": "all call sequences", "why_tests_cant": "2^49 calls cannot be run; behaviour after the exception is untested.", "anchors": ["distributed_vector_ole/aes_uniform_bit_generator.cpp:operator()"]}
{"id": "C43", "title": "Counter blocks never repeat and reseeding restarts the stream", "statement": "Between two seedings no AES input block is used twice; seed(s) makes the generator behave as freshly created from s with the same buffer size; seeds shorter than 32 bytes are rejected and leave the generator unchanged.", "quantifier": "all histories of calls and reseedings", "why_tests_cant": "unbounded histories.", "anchors": ["distributed_vector_ole/aes_uniform_bit_generator.cpp"]}
{"id": "C44", "title": "gf128 is a commutative ring under its operators", "statement": "+, -, unary -, * on gf128 satisfy all commutative ring laws with zero() and one(), and conversion to and from uint128 / words is a bijection compatible with +.", "quantifier": "all triples of elements", "why_tests_cant": "2^384 triples.", "anchors": ["distributed_vector_ole/gf128.cpp"]}
{"id": "C45", "title": "gf128 multiplication is multiplication modulo x^128+x^7+x^2+x+1, in both implementations", "statement": "The carry-less-multiply implementation (USE_ASM) and the portable loop both return the product of the operands as polynomials over GF(2) reduced modulo x^128+x^7+x^2+x+1, hence agree.", "quantifier": "all pairs of elements", "why_tests_cant": "tests check ten products of one build configuration.", "anchors": ["distributed_vector_ole/gf128.cpp:operator*="]}
{"id": "C46", "title": "gf128::inverse is the multiplicative inverse", "statement": "a * a.inverse() = one() for every a != 0, and zero().inverse() = zero().", "quantifier": "all 2^128 elements", "why_tests_cant": "one random element is tested.", "anchors": ["distributed_vector_ole/gf128.cpp:inverse"]}
{"id": "C47", "title": "gf128::multiplicative_generator generates the multiplicative group", "statement": "Every nonzero element is a power of multiplicative_generator; its order is 2^128 - 1.", "quantifier": "all nonzero elements", "why_tests_cant": "not testable by enumeration.", "anchors": ["distributed_vector_ole/gf128.cpp:multiplicative_generator", "distributed_vector_ole/gf128.h"]}
{"id": "C48", "title": "Cached NTL bit count follows the modulus", "statement": "SizeOf() for NTL types always equals ceil(bits(modulus-1)/8) of the modulus installed at the time of the call, whatever moduli were used before.", "quantifier": "every history of modulus changes and calls", "why_tests_cant": "stale caches depend on history.", "anchors": ["distributed_vector_ole/internal/ntl_helpers.cpp:NTLNumBitsCached", "distributed_vector_ole/internal/scalar_helpers.h:SizeOf"]}
{"id": "C49", "title": "Protocol results do not depend on how the two parties are scheduled", "statement": "For two parties that communicate over FIFO channels and ideal OT, if one interleaving lets both finish then every interleaving finishes with the same results and no leftover messages.", "quantifier": "every pair of party programs and every interleaving", "why_tests_cant": "schedules cannot be enumerated by tests.", "anchors": ["distributed_vector_ole/spfss_known_index.h", "distributed_vector_ole/mpfss_known_indices.h", "distributed_vector_ole/all_but_one_random_ot.h", "distributed_vector_ole/distributed_vector_ole.h"]}
{"id": "C50", "title": "An error on one side is not a hang on the other", "statement": "If one party's call returns an error status, the peer's matching call also returns (with an error).", "quantifier": "every argument combination", "why_tests_cant": "a test that hangs proves nothing; needs a deadlock argument.", "anchors": ["distributed_vector_ole/all_but_one_random_ot.h:SendTrees", "distributed_vector_ole/spfss_known_index.h", "distributed_vector_ole/mpfss_known_indices.h"]}
{"id": "C51", "title": "Parallel loops are race-free in effect", "statement": "The results of the OpenMP parallel loops (tree creation and unpacking, SPFSS sums, per-bucket setup, hashing) do not depend on the order in which iterations run.", "quantifier": "every permutation of loop iterations", "why_tests_cant": "tests see one schedule.", "anchors": ["distributed_vector_ole/all_but_one_random_ot.h", "distributed_vector_ole/all_but_one_random_ot.cpp:ReceiveTrees", "distributed_vector_ole/spfss_known_index.h", "distributed_vector_ole/mpfss_known_indices.h", "distributed_vector_ole/cuckoo_hasher.h"]}
{"id": "C52", "title": "Element arithmetic never hits signed overflow", "statement": "Multiplying two elements of an unsigned type T in the protocols is free of undefined behaviour.", "quantifier": "all pairs of values, all unsigned types", "why_tests_cant": "signed overflow through integer promotion of uint16_t is silent.", "anchors": ["distributed_vector_ole/internal/gilboa_internal.h:SpanToEMPBlock", "distributed_vector_ole/mpfss_known_indices.h:RunValueProviderVectorOLE"]}
{"id": "C53", "title": "EMP and GGM block conversions are mutually inverse", "statement": "EMPToGGMTreeBlock and GGMTreeToEMPBlock are inverse bijections.", "quantifier": "all 2^128 blocks", "why_tests_cant": "domain too large.", "anchors": ["distributed_vector_ole/internal/all_but_one_random_ot_internal.h"]}
{"id": "C54", "title": "Create functions validate their arguments before touching the channel", "statement": "AllButOneRandomOT, SPFSSKnownIndex, MPFSSKnownIndices, ScalarVectorGilboaProduct and DistributedVectorOLE Create return INVALID_ARGUMENT for a null channel or negative statistical security without communicating, and both parties of a successful MPFSSKnownIndices::Create pair hold hashers with the same seed.", "quantifier": "all arguments, all seeds, all interleavings", "why_tests_cant": "channel side effects and seed agreement are not asserted in tests.", "anchors": ["distributed_vector_ole/all_but_one_random_ot.cpp:Create", "distributed_vector_ole/spfss_known_index.cpp:Create", "distributed_vector_ole/mpfss_known_indices.cpp:Create", "distributed_vector_ole/scalar_vector_gilboa_product.cpp:Create", "distributed_vector_ole/distributed_vector_ole.h:Create"]}
{"id": "C55", "title": "HashCuckoo succeeds on two inputs whenever they fit", "statement": "If two inputs can be put into two different buckets out of those Hash assigns to them, HashCuckoo(inputs, n) returns OK, so that its failure probability for two inputs is that of all their buckets coinciding (at most 2^-statistical_security for the advertised number of buckets).", "quantifier": "all pairs of inputs, seeds, numbers of buckets", "why_tests_cant": "the failing seeds are a 1/num_buckets fraction; tests use fixed seeds and larger inputs", "anchors": ["cuckoo_hasher.h: HashCuckoo", "cuckoo_hasher.cpp: GetOptimalNumberOfBuckets"]}
{"id": "C56", "title": "The Gilboa product works for every vector that fits into memory", "statement": "RunValueProvider and RunVectorProvider with vectors of equal length return OK with additive shares, whatever the length.", "quantifier": "all lengths and element types", "why_tests_cant": "the value provider counts OTs in an int, which overflows only from 2^24 elements on.", "anchors": ["distributed_vector_ole/scalar_vector_gilboa_product.h:RunValueProvider"]}
{"id": "C57", "title": "Gilboa: the value provider learns nothing about y", "statement": "For any two vectors of equal length there is a bijection of the vector provider's randomness under which everything the value provider sees (choice bits, OT results, output) coincides.", "quantifier": "all x, y, y', all randomness; 1-out-of-2 OT for every type, correlated OT for unsigned integer types of 8 to 128 bits", "why_tests_cant": "perfect hiding quantifies over all randomness.", "anchors": ["distributed_vector_ole/internal/gilboa_internal.h:RunOTSenderCorrelated", "distributed_vector_ole/internal/gilboa_internal.h:RunOTSender1of2"]}
{"id": "C58", "title": "Gilboa: the vector provider learns nothing about x", "statement": "What the vector provider sees and outputs is determined by its own input and randomness; it receives nothing.", "quantifier": "all inputs, any behaviour of the peer", "why_tests_cant": "a non-interference statement over all peers.", "anchors": ["distributed_vector_ole/scalar_vector_gilboa_product.h:RunVectorProvider"]}
{"id": "C60", "title": "Matching calls succeed unless a probabilistic step fails", "statement": "If the random choices do not make cuckoo hashing or sampling fail, every sequence of matching calls with valid arguments in which one party is always the sender returns OK on both sides with correlated results.", "quantifier": "every history of valid sizes and batch sizes, every interleaving, every environment in which sampling and hashing succeed", "why_tests_cant": "tests try a handful of histories; the claim is about all of them.", "anchors": ["distributed_vector_ole/distributed_vector_ole.h:RunSender", "distributed_vector_ole/distributed_vector_ole.h:RunReceiver"]}
{"id": "C61", "title": "All outputs of a batch together are as close to uniform as the statistical security promises", "statement": "If RunSenderBatched returns OK (or PrecomputeCommon, for the elements of the code generator), then with truly random 128-bit leaves the tuple of all elements of the batch is within 2^-s of uniform: every set of tuples has probability at most 2^-s above its share.", "quantifier": "all batches and sizes, all moduli, all s, any peer", "why_tests_cant": "a statement about probabilities over (2^128)^n tuples of leaves.", "anchors": ["distributed_vector_ole/all_but_one_random_ot.h:SendTrees", "distributed_vector_ole/distributed_vector_ole.h:PrecomputeCommon"]}
{"id": "C62", "title": "Arguments of the hasher", "statement": "CuckooHasher::Create succeeds exactly for a positive number of hash functions. GetOptimalNumberOfBuckets rejects negative sizes, returns 1 for size 0 (so that the other functions accept the result), an estimate for 2 and 3 hash functions, and UNIMPLEMENTED otherwise.", "quantifier": "all arguments", "why_tests_cant": "unbounded argument ranges; the interplay of the two functions on empty inputs is not tested.", "anchors": ["distributed_vector_ole/cuckoo_hasher.cpp:Create", "distributed_vector_ole/cuckoo_hasher.cpp:GetOptimalNumberOfBuckets"]}
{"id": "C63", "title": "MPFSS rejects bad sizes before communicating", "statement": "RunValueProviderVectorOLE rejects y_len < 1, and RunIndexProviderVectorOLE rejects y and indices of different length or empty and outputs shorter than indices, with INVALID_ARGUMENT, without communicating, and leaving outputs and cached buckets untouched.", "quantifier": "all arguments and states", "why_tests_cant": "absence of communication and of side effects is not asserted.", "anchors": ["distributed_vector_ole/mpfss_known_indices.h:RunValueProviderVectorOLE", "distributed_vector_ole/mpfss_known_indices.h:RunIndexProviderVectorOLE"]}
{"id": "C59", "title": "Runs use a code generator that was sampled", "statement": "Whenever an object is ready to run as sender or receiver (so that Run does not precompute first), its code generator was sampled from a seed; in particular a Precompute call that failed does not leave the object ready with a generator that has no entries, with which Run would return vectors that are zero almost everywhere.", "quantifier": "all sequences of calls on an object, in any role, whatever the peer does; all parameters", "why_tests_cant": "needs a precomputation that fails after another one has succeeded; tests check the correlation of the outputs, which holds also for a generator without entries.", "anchors": ["distributed_vector_ole/distributed_vector_ole.h:PrecomputeCommon", "distributed_vector_ole/distributed_vector_ole.h:PrecomputeSender", "distributed_vector_ole/distributed_vector_ole.h:PrecomputeReceiver", "distributed_vector_ole/distributed_vector_ole.h:RunSender"]}
{"id": "C64", "title": "Gilboa with correlated OT hides y up to the statistical security", "statement": "If UseCorrelatedOT chooses correlated OT for n elements at statistical security s, then for all vectors y, y' of length n and every set of views of the value provider, the probability (over the blocks drawn by the OT extension) of the set under y exceeds that under y' by at most 2^-s.", "quantifier": "all moduli, all s, all n, all x, y, y', all sets of views, all interleavings", "why_tests_cant": "a statement about probabilities over (2^128)^n choices of blocks; the outputs are correct shares however biased the masks are.", "anchors": ["distributed_vector_ole/scalar_vector_gilboa_product.h:UseCorrelatedOT", "distributed_vector_ole/internal/gilboa_internal.h:RunOTSenderCorrelated", "distributed_vector_ole/internal/scalar_helpers.h:CanBeHashedInto"]}
{"id": "C65", "title": "A statistical security that Create accepts does not lead to undefined behaviour", "statement": "If Create returns OK for a statistical security on both sides, then no call with valid arguments on the returned objects has undefined behaviour.", "quantifier": "all values of the statistical security including NaN and infinity, all sizes, all interleavings", "why_tests_cant": "tests use 40 bits; an out-of-range conversion of a double gives a platform-dependent number rather than a failure.", "anchors": ["distributed_vector_ole/cuckoo_hasher.cpp:GetOptimalNumberOfBuckets", "distributed_vector_ole/mpfss_known_indices.cpp:Create", "distributed_vector_ole/distributed_vector_ole.h:Create"]}
{"id": "C66", "title": "Worker threads compute with the caller's modulus", "statement": "Whatever NTL moduli are installed in the threads that execute the parallel regions of a call (including none), the call has the effect of executing its iterations in the calling thread, with the calling thread's modulus; in particular the products in ExpandSender and ExpandReceiver, which Eigen distributes over threads without restoring the context.", "quantifier": "all earlier moduli of all threads, all numbers of threads, all assignments of iterations to threads, all sizes", "why_tests_cant": "depends on which thread executes which iteration and on what the threads did before.", "anchors": ["distributed_vector_ole/internal/ntl_helpers.h:NTLContext", "distributed_vector_ole/all_but_one_random_ot.h:RunSenderBatched", "distributed_vector_ole/mpfss_known_indices.h:RunIndexProviderVectorOLE", "distributed_vector_ole/distributed_vector_ole.h:Create", "distributed_vector_ole/distributed_vector_ole.h:ExpandSender", "distributed_vector_ole/distributed_vector_ole.h:ExpandReceiver"]}
{"id": "C67", "title": "The number of buckets is sensible", "statement": "For three hash functions, GetOptimalNumberOfBuckets returns at least as many buckets as there are inputs if the statistical security is at least 12 bits; for up to 1000 bits (and 2^40 inputs) it returns a positive number without undefined behaviour; for objects created with up to 128 bits the numbers for all rows of the parameters fit what the expansions produce. More security never means fewer buckets. For two hash functions the search terminates, with the smallest factor that achieves the security.", "quantifier": "all numbers of inputs, all statistical securities in the given ranges, any rounding with a relative error of at most 2^-40", "why_tests_cant": "tests compare a few values; the formula has a transition (erf) at small sizes, and the search has no bound.", "anchors": ["distributed_vector_ole/cuckoo_hasher.cpp:GetOptimalNumberOfBuckets", "distributed_vector_ole/mpfss_known_indices.cpp:Create", "distributed_vector_ole/distributed_vector_ole.h:Create"]}
{"id": "C68", "title": "Rounding does not get in the way, and programs that use the library work", "statement": "Trees of any arity from 2 on and up to 2^33 leaves get enough levels, and at most one too many, whatever the rounding of the logarithms. Hashing is refused exactly when about 128 bits would not suffice. Two programs that create a DistributedVectorOLE with up to 87 bits of statistical security over the same channel and make matching calls, with one of them always the sender, get OK from Create and from all calls, and correlated results, in every interleaving, if the element type is suitable and the random choices are lucky (sampling ends, hashing succeeds); with up to 128 bits, whenever all calls return OK, the results are correlated, in any mixture of roles, and the programs never wait for each other forever. More than 129 bits are refused by both sides of MPFSS.", "quantifier": "all floating-point arithmetics with a relative error of at most 2^-40 in the formulas, all seeds, threads, histories, interleavings, and statistical securities in the ranges", "why_tests_cant": "tests use a few sizes and one implementation of the logarithm; rounding errors of ceil(log n / log a) appear at particular sizes only.", "anchors": ["distributed_vector_ole/ggm_tree.cpp:AllocateLevels", "distributed_vector_ole/all_but_one_random_ot.cpp:ReceiveTrees", "distributed_vector_ole/cuckoo_hasher.h:HashSimple", "distributed_vector_ole/cuckoo_hasher.h:HashCuckoo", "distributed_vector_ole/distributed_vector_ole.h:Create"]}
{"id": "C69", "title": "The unit tests pass, and would pass for all their arguments", "statement": "Each check of the unit tests holds of the model, not only for the sizes and values of the test but for every value in a range that includes them, with the element types of the tests, every cipher, and every arithmetic that is accurate to 2^-40: the vectors of Sage and the inverse in gf128; trees of any arity (also rebuilt from sibling sums); error codes and messages; shares and correlations of the random OT, SPFSS, MPFSS and Gilboa protocols; the conversions between elements and blocks; the number of buckets for 2^20 inputs; VOLE with and without precomputation at 40 bits. zz_p is suitable for VOLE exactly if 2^s * (2^128 mod p) * 318482760 < 2^128.", "quantifier": "all arguments in the ranges, ciphers, seeds, thread counts, and interleavings; all statistical securities in the last sentence", "why_tests_cant": "a test is one run of each, with one implementation of AES and of the logarithm; the test of the punctured tree compares the leaves of the new tree with themselves.", "anchors": ["distributed_vector_ole/ggm_tree.h:Create", "distributed_vector_ole/gf128.h:gf128", "distributed_vector_ole/all_but_one_random_ot.h:RunSender", "distributed_vector_ole/spfss_known_index.h:RunValueProvider", "distributed_vector_ole/mpfss_known_indices.h:RunValueProviderVectorOLE", "distributed_vector_ole/scalar_vector_gilboa_product.h:RunValueProvider", "distributed_vector_ole/distributed_vector_ole.h:RunSender"]}
{"id": "C70", "title": "Experiments and benchmarks run to completion, except that of the MPFSS", "statement": "The three programs of experiments.cpp (VOLE, Gilboa, SPFSS) succeed on both sides, in every interleaving, for all sizes of the experiments and all element types of up to 8 bytes that the experiments use, and give a vector OLE, shares of x * (y + k), and shares of zeros; any other name is refused without communication. BM_Run, BM_Precompute and the benchmarks of SPFSS and Gilboa, in which the main thread tells the other thread by a bool after each iteration whether to go on, come to an end with equally many iterations on both sides, for any number of iterations, and the results of each iteration are correct. The benchmark of the MPFSS hangs: the main thread creates its object, which waits for the other party, before it starts the thread of the other party.", "quantifier": "all sizes up to 2^24 (VOLE: below 2^31, or 2^62 in the benchmarks), numbers of iterations, inputs, ciphers, seeds, accurate evaluations of the formulas, interleavings", "why_tests_cant": "they are run by hand on two machines, check none of their results, and one of them never ends", "anchors": ["experiments/experiments.cpp:RunExperiment", "experiments/experiments.cpp:RunVOLE", "experiments/experiments.cpp:RunGilboa", "experiments/experiments.cpp:RunSPFSS", "distributed_vector_ole/distributed_vector_ole_benchmark.cpp:BM_Run", "distributed_vector_ole/distributed_vector_ole_benchmark.cpp:BM_Precompute", "distributed_vector_ole/spfss_known_index_benchmark.cpp:BM_RunNative", "distributed_vector_ole/scalar_vector_gilboa_product_benchmark.cpp:BM_RunNative", "distributed_vector_ole/mpfss_known_indices_benchmark.cpp:BM_RunNative"]}
{"id": "C71", "title": "Bucket numbers are close to uniform if the sizes are accepted", "statement": "If HashSimple or HashCuckoo accepts the numbers of inputs and buckets (128 bits are enough), then reducing independent uniform 128-bit hashes, one for each input and hash function, to bucket numbers is within statistical distance 2^-s / 2 of uniform bucket numbers. With a uniformly random function in place of AES, the table of the buckets of pairwise different inputs under all hash functions is in any set A of tables with at most the probability |A| / N^(m k) of a uniform table, plus 2^-s / 2, plus (m k)^2 / 2^128, where m is the number of inputs, k that of hash functions and N that of buckets.", "quantifier": "all numbers of inputs, hash functions and buckets below 2^63, all lists of different inputs, all sets of tables, all statistical securities of at least 0 bits, any rounding with a relative error of at most 2^-40", "why_tests_cant": "a test sees a few hashes under one key; a distance of 2^-40 between distributions is not observable.", "anchors": ["distributed_vector_ole/cuckoo_hasher.h:HashSimple", "distributed_vector_ole/cuckoo_hasher.h:HashCuckoo", "distributed_vector_ole/cuckoo_hasher.h:HashToUint128", "distributed_vector_ole/cuckoo_hasher.cpp:HashToBucket"]}
{"id": "C72", "title": "Sampling of the noise and of the code generator ends", "statement": "With std::uniform_int_distribution as in libstdc++ (the algorithm before and since version 11), a call returns the meaning of the first 64-bit word of the generator that has one; all numbers of the range are the meanings of equally many words and at most as many words as there are numbers in the range have none. With a uniformly random function in place of AES: sampling t different noise indices below n from 2B words fails to end with probability at most C(n, t-1) (t/n)^(2B), which is below 2^-138 for two words per index and the parameters of the library; sampling the code generator with F words for each row number fails to end with probability at most 10 cols (F+2) (rows / 2^64)^F.", "quantifier": "all ranges below 2^64, all generators and seeds, all numbers of rows below 2^64 and of columns up to the largest of the library, both versions of the distribution, both orders of evaluation", "why_tests_cant": "a test that ends says nothing about other seeds; the loops have no bound in the code.", "anchors": ["distributed_vector_ole/distributed_vector_ole.h:ExpandSender", "distributed_vector_ole/distributed_vector_ole.h:PrecomputeCommon", "distributed_vector_ole/aes_uniform_bit_generator.cpp:operator()"]}
{"id": "C73", "title": "AES itself: a permutation for every key, and the test of cuckoo hashing", "statement": "With AES-128 as in FIPS 197 in place of an arbitrary function: it is a permutation of the blocks for every key; the pairs of words that the random generator makes from different blocks are different; and the unit test TestCuckooHashing passes: with the seed -1234 and three hash functions, the numbers 123, 124, ... are hashed into the numbers of buckets of the test, each element into exactly one bucket.", "quantifier": "all keys, nonces and positions in the stream below 2^128 blocks; all 32 pairs of numbers of buckets and elements of the test; any rounding with a relative error of at most 2^-40", "why_tests_cant": "a test cannot try all keys; the last part is a test, repeated here in the model, which shows that model and code agree on it.", "anchors": ["distributed_vector_ole/aes_uniform_bit_generator.cpp:operator()", "distributed_vector_ole/cuckoo_hasher.h:HashCuckoo", "distributed_vector_ole/cuckoo_hasher.h:HashToUint128", "distributed_vector_ole/cuckoo_hasher_test.cpp:TestCuckooHashing"]}
{"id": "C74", "title": "The unit tests that depend on random numbers, with a random function in place of AES", "statement": "With a uniformly random function from blocks to blocks in place of AES: NotObviouslyBroken fails with a probability of at most 3/2^64, AllBitsGetSampled of at most 2^-74, and UniformReals (the mean of 2^24 numbers is within 0.01 of one half) of at most 2^-1900; hashing N different elements into N buckets with k hash functions fails, as TestCuckooHashingOverflow expects of 2^20 elements and two functions, except with a probability of at most (1 - (1 - 1/N)^(kN))^N + 2^-s/2 + (kN)^2/2^128, which is below 2^-40 for the test.", "quantifier": "all seeds of at least 32 bytes; any double arithmetic with a relative error of at most 2^-53; all N and k that the hasher accepts, all lists of different elements", "why_tests_cant": "the tests are run with a few seeds; whether they are flaky shows in the long run only.", "anchors": ["distributed_vector_ole/aes_uniform_bit_generator_test.cpp:NotObviouslyBroken", "distributed_vector_ole/aes_uniform_bit_generator_test.cpp:AllBitsGetSampled", "distributed_vector_ole/aes_uniform_bit_generator_test.cpp:UniformReals", "distributed_vector_ole/cuckoo_hasher_test.cpp:TestCuckooHashingOverflow", "distributed_vector_ole/cuckoo_hasher.h:HashCuckoo"]}
{"id": "C75", "title": "Amount of communication", "statement": "In every execution, with any peer, each party sends no more than an explicit number of elements, 16-byte blocks and bytes and takes part in no more than an explicit number of oblivious transfers, and exactly these if the call succeeds: all-but-one random OT one transfer per level of each tree and two blocks from the sender; SPFSS one element more per output from the value provider; MPFSS one element per bucket in each direction; Gilboa's product as many transfers as an element has bits per 16 bytes; a precomputation and ceil((n - cached) / batch size) expansions for a run of the vector OLE. After Create with up to 128 bits of statistical security, a run for n >= 10022032 elements costs at most a constant plus 5900 elements and 86488 transfers for every 10022032 elements.", "quantifier": "all executions with any peer, all inputs, states and sequences of calls, all element types; all prices of elements, blocks, bytes and transfers", "why_tests_cant": "the tests do not look at the amount of communication at all, and measurements show it for a few parameters only.", "anchors": ["distributed_vector_ole/distributed_vector_ole.h:RunSender", "distributed_vector_ole/distributed_vector_ole.h:RunReceiver", "distributed_vector_ole/distributed_vector_ole.h:PrecomputeSender", "distributed_vector_ole/mpfss_known_indices.h:RunValueProviderVectorOLE", "distributed_vector_ole/mpfss_known_indices.h:RunIndexProviderVectorOLE", "distributed_vector_ole/all_but_one_random_ot.h:RunSenderBatched", "distributed_vector_ole/scalar_vector_gilboa_product.h:RunVectorProvider"]}
{"id": "C76", "title": "A random permutation in place of AES", "statement": "AES with any key is a permutation of the blocks, so a random permutation is a closer model of it than a random function. Anything that depends on at most 2^63 encryptions of different blocks happens with at most 4/3 times the probability it would have with independent and uniform blocks. The bounds of C71, C72 and C74 therefore hold with a factor of 4/3: on the joint distribution of bucket numbers; on failures to sample noise indices (below 2^-138) and code matrices; on failures of NotObviouslyBroken (at most 2^-62), AllBitsGetSampled (below 2^-73), UniformReals and TestCuckooHashingOverflow (at most 2^-40).", "quantifier": "all sets of outcomes, all lists of different inputs, all parameters of the library, all seeds and keys", "why_tests_cant": "tests see a few keys out of 2^128, and no test can see a probability of 2^-138.", "anchors": ["distributed_vector_ole/cuckoo_hasher.h:HashSimple", "distributed_vector_ole/cuckoo_hasher.h:HashCuckoo", "distributed_vector_ole/cuckoo_hasher.h:HashToUint128", "distributed_vector_ole/cuckoo_hasher.cpp:HashToBucket", "distributed_vector_ole/distributed_vector_ole.h:ExpandSender", "distributed_vector_ole/distributed_vector_ole.h:PrecomputeCommon", "distributed_vector_ole/aes_uniform_bit_generator.cpp:operator()", "distributed_vector_ole/aes_uniform_bit_generator_test.cpp:NotObviouslyBroken", "distributed_vector_ole/aes_uniform_bit_generator_test.cpp:AllBitsGetSampled", "distributed_vector_ole/aes_uniform_bit_generator_test.cpp:UniformReals", "distributed_vector_ole/cuckoo_hasher_test.cpp:TestCuckooHashingOverflow"]}
{"id": "C77", "title": "Cuckoo hashing into the advertised number of buckets fails with probability at most 2^-statistical_security", "statement": "With a uniformly random function in place of AES, inserting num_inputs different inputs into GetOptimalNumberOfBuckets(num_inputs) buckets fails with a probability of at most 2^-statistical_security (the promise of the header), for the numbers of noise indices that DistributedVectorOLE uses and its default of 40 bits.", "quantifier": "all lists of different inputs, all statistical securities, all numbers of hash functions and buckets", "why_tests_cant": "the tests hash a few times with fixed seeds; a probability of 2^-36 in place of 2^-40 does not show.", "anchors": ["distributed_vector_ole/cuckoo_hasher.h:GetOptimalNumberOfBuckets", "distributed_vector_ole/cuckoo_hasher.cpp:GetOptimalNumberOfBuckets", "distributed_vector_ole/cuckoo_hasher.h:HashCuckoo", "distributed_vector_ole/mpfss_known_indices.h:RunIndexProviderVectorOLE"]}
{"id": "C78", "title": "Several objects over the same connection do not get in each other's way", "statement": "Two programs create any number of DistributedVectorOLE objects over the same connection, at any time, and make any sequence of matching calls in any mixture of objects and roles. If all calls return OK, the results of each object are vector OLE correlations with the delta of that object, and both parties have objects that are in step; the programs never wait for each other forever. If each object is used in one direction only (one object per direction, say), arguments are valid and the random choices are lucky, all calls succeed.", "quantifier": "all sequences of creations and matching calls, numbers of objects, statistical securities (up to 128 and 87 bits), inputs, seeds, thread counts and interleavings", "why_tests_cant": "the tests use one object per party, in one direction.", "anchors": ["distributed_vector_ole/distributed_vector_ole.h:Create", "distributed_vector_ole/distributed_vector_ole.h:RunSender", "distributed_vector_ole/distributed_vector_ole.h:RunReceiver", "distributed_vector_ole/distributed_vector_ole.h:PrecomputeSender", "distributed_vector_ole/distributed_vector_ole.h:PrecomputeReceiver", "distributed_vector_ole/mpfss_known_indices.cpp:Create"]}
{"id": "C79", "title": "A misbehaving peer cannot cause undefined behaviour", "statement": "Whatever the other party sends (keys of a tree, vectors of any length, a closed connection) and whatever the oblivious transfers return, a party called with valid or invalid arguments has no undefined behaviour: no read or write out of bounds.", "quantifier": "all messages, all results of oblivious transfers, all arguments of supported sizes, all histories of the MPFSS object", "why_tests_cant": "the tests only run the library against itself, never against a peer that sends something else.", "anchors": ["distributed_vector_ole/ggm_tree.cpp:GGMTree", "distributed_vector_ole/all_but_one_random_ot.h:RunReceiverBatched", "distributed_vector_ole/scalar_vector_gilboa_product.h:RunValueProvider", "distributed_vector_ole/spfss_known_index.h:RunIndexProviderBatched", "distributed_vector_ole/mpfss_known_indices.h:RunValueProviderVectorOLE", "distributed_vector_ole/mpfss_known_indices.h:RunIndexProviderVectorOLE", "distributed_vector_ole/distributed_vector_ole.h:PrecomputeReceiver"]}
{"id": "C80", "title": "UpdateBuckets either does what was asked or changes nothing", "statement": "A call of UpdateBuckets(output_size, num_indices) that does not return OK leaves the object as it was; after one that returns OK the object remembers both arguments and a second call with the same arguments returns OK and changes nothing; a negative num_indices is rejected with INVALID_ARGUMENT, and a negative output_size ends in an exception of std::vector, after any history.", "quantifier": "all arguments, all histories of the object, all ways the threads share the work", "why_tests_cant": "no test calls UpdateBuckets directly, and the cached members cannot be observed from outside.", "anchors": ["distributed_vector_ole/mpfss_known_indices.cpp:UpdateBuckets"]}
