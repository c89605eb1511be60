{"id": "C01", "title": "inner_product is the dot product", "statement": "inner_product(a, b) returns the sum of a[i]*b[i] over the indices common to both slices, never panics, is symmetric and is linear in each argument.", "quantifier": "every pair of scalar slices of any lengths", "why_tests_cant": "a test samples a few vectors of a few lengths; the protocols rely on the identity for every vector", "anchors": ["src/math_utils.rs: inner_product"]}
{"id": "C02", "title": "vandemonde_challenge yields consecutive powers starting at x", "statement": "For n >= 1, vandemonde_challenge(x, n) returns exactly n scalars and entry i is x^(i+1); for n = 0 it panics.", "quantifier": "every scalar x and every n", "why_tests_cant": "the existing test fixes x = 2 and n = 32", "anchors": ["src/math_utils.rs: vandemonde_challenge"]}
{"id": "C03", "title": "vandemonde_vector yields consecutive powers starting at 1", "statement": "For n >= 1, vandemonde_vector(x, n) (and the generic variant with one = 1) returns exactly n entries and entry i is x^i; for n = 0 they panic. vandemonde_matrix(m, n) returns m such rows for every outcome of the random generator.", "quantifier": "every x, m, n and random tape", "why_tests_cant": "random matrices are only ever sampled", "anchors": ["src/matrix.rs: vandemonde_vector, vandemonde_vector_general, vandemonde_matrix"]}
{"id": "C04", "title": "Entrywise matrix and row operations", "statement": "matrix_scalar_mul, row_row_add, row_row_sub, matrix_matrix_add, their point versions and their generic versions compute the entrywise operation of ordinary matrix algebra; the additions and subtraction panic exactly when two paired lengths differ, and the scalar multiplications never panic.", "quantifier": "every matrix, row and scalar, rectangular or ragged", "why_tests_cant": "shapes and values are unbounded", "anchors": ["src/matrix.rs: matrix_scalar_mul, row_row_add, row_row_sub, matrix_matrix_add, matrixpoint_scalar_mul, vectorpoint_scalar_mul, rowpoint_rowpoint_add, matrixpoint_matrix_add, *_general"]}
{"id": "C05", "title": "Matrix-vector products compute A*x", "statement": "matrix_vector_mul, matrixpoint_vector_mul and matrix_vector_mul_general return, for an m x n matrix and a vector of length n, the m entries sum_j A[i][j]*x[j]; the product is linear in the vector and in the matrix.", "quantifier": "every matrix and vector of every size", "why_tests_cant": "sizes and values are unbounded", "anchors": ["src/matrix.rs: matrix_vector_mul, matrixpoint_vector_mul, matrix_vector_mul_general"]}
{"id": "C06", "title": "Transposition", "statement": "On a non-empty rectangular matrix matrix_transpose and matrixpoint_transpose return the matrix whose (j,i) entry is the (i,j) entry of the input, transposing twice gives the input back when there is at least one column, and on any input they panic exactly when the matrix has no rows or some row is longer than the first one.", "quantifier": "every matrix, rectangular or ragged", "why_tests_cant": "sizes, shapes and values are unbounded", "anchors": ["src/matrix.rs: matrix_transpose, matrixpoint_transpose"]}
{"id": "C07", "title": "matrix_split loses nothing", "statement": "For a rectangular matrix with n columns and a chunk size c >= 1 dividing n, matrix_split returns n/c blocks of c columns each whose horizontal concatenation is the input; it panics when the matrix has no rows, c = 0, or c does not divide n.", "quantifier": "every matrix and chunk size", "why_tests_cant": "sizes, shapes and values are unbounded", "anchors": ["src/matrix.rs: matrix_split"]}
{"id": "C08", "title": "block_matrix_batch is the challenge-weighted sum", "statement": "For k >= 1 matrices of one common shape and at least k challenges, block_matrix_batch returns sum_i c_i*M_i; with no matrices or no challenges it panics.", "quantifier": "every block of matrices and challenge vector", "why_tests_cant": "sizes and values are unbounded", "anchors": ["src/matrix.rs: BlockMatrix::block_matrix_batch, BlockMatrix::new, BlockMatrix::push, BlockMatrix::with"]}
{"id": "C09", "title": "Batching takes exactly the first n equations into account (finding: the others are dropped silently)", "statement": "qesa_inner, qesa_zk create and verify take exactly the first n = G.len() matrices of the BlockMatrix into account: up to n equations each one enters with its own power of the challenge x, and for more than n equations prover and verifier behave exactly as if the surplus equations were absent, so a proof says nothing about them.", "quantifier": "every number of equations and every n", "why_tests_cant": "the tests only use fewer equations than generators; the claim fails exactly beyond that bound", "anchors": ["src/matrix.rs: block_matrix_batch", "src/ipa/qesa_inner.rs: create, Inner::verify"]}
{"id": "C10", "title": "challenge_scalar reduces 64 transcript bytes and is almost uniform", "statement": "challenge_scalar requests 64 bytes under the given label and returns their little-endian value modulo the group order; every scalar is the image of floor(2^512/l) or floor(2^512/l)+1 of the 2^512 possible outputs.", "quantifier": "every transcript, label and all 2^512 outputs", "why_tests_cant": "2^512 outputs cannot be enumerated", "anchors": ["src/transcript.rs: TranscriptProtocol::challenge_scalar"]}
{"id": "C11", "title": "Fiat-Shamir log of the inner-product protocols", "statement": "The labelled messages and challenges that ipa::no_zk and ipa::alm_zk create/verify add to the transcript are exactly: (C_r, beta, P,) n, alpha and then L_i, R_i, x_i per round, in that order, carrying exactly the bytes published in the proof.", "quantifier": "every input, proof (honest or not) and transcript history", "why_tests_cant": "a test only sees prover and verifier agree, which also holds when both omit a message", "anchors": ["src/ipa/no_zk.rs: create, NoZK::verify, generate_challenges", "src/ipa/alm_zk.rs: create, AlmZK::verify"]}
{"id": "C12", "title": "orth returns a vector orthogonal to its first argument", "statement": "orth(a, b) panics iff <a,b> = 0; otherwise, if <a,a> != 0 and the lengths agree, the result has the length of a, differs from b by a multiple of a, and has inner product 0 with a.", "quantifier": "every pair of vectors over the scalar field, including isotropic ones (<a,a> = 0)", "why_tests_cant": "isotropic vectors have negligible probability under random testing", "anchors": ["src/ipa/gramschmidt.rs: orth"]}
{"id": "C13", "title": "sample_gram_schmidt returns a vector orthogonal to its argument", "statement": "Whenever sample_gram_schmidt(a) returns and <a,a> != 0, the result has length a.len() and is orthogonal to a, whatever the random generator produced.", "quantifier": "every vector and every random tape", "why_tests_cant": "the random tape is universally quantified", "anchors": ["src/ipa/gramschmidt.rs: sample_gram_schmidt"]}
{"id": "C14", "title": "sample_gram_schmidt_twice returns a vector orthogonal to both arguments", "statement": "Whenever sample_gram_schmidt_twice(a, b) returns and neither <a,a> nor the self inner product of the a-orthogonal part of b vanishes, the result is orthogonal to a and to b.", "quantifier": "every pair of vectors and every random tape", "why_tests_cant": "the random tape is universally quantified", "anchors": ["src/ipa/gramschmidt.rs: sample_gram_schmidt_twice"]}
{"id": "C15", "title": "Sparse sampling stays in bounds and fills the intended positions", "statement": "For n >= 2 the sampler behind sample_gram_schmidt never panics, returns n scalars, and the positions that carry fresh randomness are exactly 0, 1, 2^j and 2^j+1 for 2 <= 2^j <= n/2, n-2 and n-1; all other positions are zero. For n < 2 it panics.", "quantifier": "every n and every random tape", "why_tests_cant": "the index arithmetic must be in bounds for every n, not only powers of two that were tried", "anchors": ["src/ipa/gramschmidt.rs: sample_m_n_plus"]}
{"id": "C16", "title": "IPA completeness", "statement": "For every n = 2^k, generators, and vectors a, b of length n, verify accepts the proof made by create against P = <a,G> + <b,H> + <a,b>*Q and t = <a,b>, provided the challenge alpha is non-zero.", "quantifier": "every k, vectors, generators, hash outputs and prior transcript", "why_tests_cant": "random tests cover a handful of n and never the exceptional challenges", "anchors": ["src/ipa/no_zk.rs: create, NoZK::verify"]}
{"id": "C17", "title": "IPA create rejects malformed input and always terminates", "statement": "create returns a proof iff the four vectors have one common length that is a power of two; otherwise it panics; it never loops forever. The proof has exactly log2(n) L points and log2(n) R points.", "quantifier": "every input", "why_tests_cant": "termination and totality range over all inputs", "anchors": ["src/ipa/no_zk.rs: create"]}
{"id": "C18", "title": "IPA honest proofs are rejected for a different statement", "statement": "If all challenges are non-zero, the proof made by create from a, b is accepted for a claim (P, t) iff alpha*(P - <a,G> - <b,H>) = ((alpha-1)*t + <a,b>)*Q; in particular with P = <a,G> + <b,H> + t*Q, Q not the identity and t != <a,b> it is always rejected.", "quantifier": "every input, claim and hash outputs", "why_tests_cant": "needs the exact acceptance set for all claims", "anchors": ["src/ipa/no_zk.rs: create, NoZK::verify"]}
{"id": "C19", "title": "IPA verdict is the closed-form verification equation", "statement": "verify returns true iff a*sum_i(s_i*G_i) + b*sum_i(s'_i*H_i) + a*b/alpha*Q equals (prod x_j)*(P - (alpha-1)/alpha*t*Q) + sum_j (prod_{m>j} x_m)*(x_j^2*L_j + R_j), where s_i and s'_i are the products of challenges selected by the bits of i.", "quantifier": "every well-formed proof, honest or adversarial, every n = 2^k", "why_tests_cant": "adversarial proofs range over an exponential set", "anchors": ["src/ipa/no_zk.rs: NoZK::verify"]}
{"id": "C20", "title": "IPA prover and verifier leave identical transcripts", "statement": "After create and after verify of the resulting proof from the same starting transcript, both transcripts are in the same state, so later challenges agree; this does not depend on the verdict.", "quantifier": "every input and prior transcript", "why_tests_cant": "must hold for all histories so that protocols can be composed", "anchors": ["src/ipa/no_zk.rs: create, NoZK::verify, generate_challenges"]}
{"id": "C21", "title": "IPA special soundness", "statement": "From accepting runs of verify that form a tree in which every node has four pairwise distinct challenges (one tree for each of two distinct non-zero values of alpha), an extractor that sees only the scalars of the trees computes vectors a, b with P = <a,G> + <b,H> + t*Q and <a,b> = t, or else the coefficients of a non-trivial linear relation between the generators G, H, Q.", "quantifier": "every n = 2^k, generators, adversarial messages and challenge trees", "why_tests_cant": "soundness is a statement about all provers", "anchors": ["src/ipa/no_zk.rs: NoZK::verify"]}
{"id": "C22", "title": "IPA verify on adversarial input: exactly when it panics", "statement": "verify panics iff some L or R does not decompress, n is not 2^(number of L points) (with fewer than 64 of them), or a generator vector has at most n - 2^(|L|-|R|) entries (subtraction truncated at 0, so n-1 when |R| >= |L|); in every other case it returns a boolean.", "quantifier": "every adversarial proof and every argument", "why_tests_cant": "adversarial inputs range over an infinite set", "anchors": ["src/ipa/no_zk.rs: NoZK::verify"]}
{"id": "C23", "title": "IPA proof points are bound by the transcript, except surplus R points (finding)", "statement": "Two proofs with as many R as L points that, verified from the same transcript and with the same n, leave the same transcript carry the same points. R points beyond the number of L points are neither hashed nor used: appending any points to the R points of a proof that has at least as many R as L points changes neither verdict nor transcript, so every such proof, in particular every honest one, is malleable.", "quantifier": "every proof", "why_tests_cant": "negative property over all proofs", "anchors": ["src/ipa/no_zk.rs: NoZK::verify, generate_challenges"]}
{"id": "C24", "title": "AlmZK completeness", "statement": "Whenever alm_zk::create returns a proof for C_w = <a,G> + <b,H> and t = <a,b>, the Gram-Schmidt bases it used are non-isotropic and alpha is non-zero, AlmZK::verify accepts it for (C_w, t), whatever the random tape was.", "quantifier": "every n = 2^k, witness, generators, random tape, hash outputs and prior transcript", "why_tests_cant": "randomness and hash outputs are universally quantified", "anchors": ["src/ipa/alm_zk.rs: create, AlmZK::verify"]}
{"id": "C25", "title": "AlmZK special soundness", "statement": "From accepting runs of AlmZK::verify with one first message C_r and three distinct challenges beta (each with accepting trees as in the soundness of the inner argument), an extractor that sees only scalars computes u, v with C_w = <u,G> + <v,H> and <u,v> = t, or else the coefficients of a non-trivial linear relation between the generators.", "quantifier": "all generators, adversarial messages and challenges", "why_tests_cant": "soundness is a statement about all provers", "anchors": ["src/ipa/alm_zk.rs: AlmZK::verify"]}
{"id": "C26", "title": "QESA completeness", "statement": "If w[0] = 1 and w satisfies every equation w^T*Gamma_i*w = 0, the proof made by qesa_zk::create is accepted by Zk::verify, provided create returned, the challenges x and alpha are non-zero and the masks were sampled from non-isotropic bases.", "quantifier": "every n = 2^k >= 4, system, witness, generators, random tape, hash outputs and prior transcript", "why_tests_cant": "everything is universally quantified", "anchors": ["src/qesa_zk.rs: create, Zk::verify", "src/ipa/qesa_inner.rs: create, Inner::verify"]}
{"id": "C27", "title": "The batched quadratic form represents the system", "statement": "For a system of k equations (of which the code uses the first n), w^T*(sum x^(i)*Gamma_i)*w is the sum of x^i times the i-th form. If w satisfies the equations the batched equation holds for all challenges x; if one of them is violated, at most k values of x make the batched equation hold.", "quantifier": "every system, witness and challenge", "why_tests_cant": "a Schwartz-Zippel bound quantifies over all challenges", "anchors": ["src/ipa/qesa_inner.rs: create, Inner::verify", "src/matrix.rs: block_matrix_batch", "src/math_utils.rs: vandemonde_challenge"]}
{"id": "C28", "title": "The value t recomputed by the QESA verifier is the prover's inner product", "statement": "For every witness and mask, <a,b> computed by the prover equals w^T*Gamma*w minus s^T*Gamma*s, so it equals the verifier's t iff the batched equation holds; the masks r', r'' never contribute.", "quantifier": "every witness, batched matrix, masks and challenges", "why_tests_cant": "an algebraic identity over all values", "anchors": ["src/ipa/qesa_inner.rs: create, Inner::verify, compute_gamma_prime"]}
{"id": "C29", "title": "QESA is not sound (finding): proofs of every statement can be forged from public data", "statement": "For every system of quadratic equations, satisfiable or not, every transcript and all generators, an explicit procedure that uses only public data returns a proof that Zk::verify accepts, unless the challenge alpha it meets is zero. (Cause: c''_w is not committed before the challenge x and may contain G components, so it can cancel c'_w and the correction term.)", "quantifier": "every statement, generators, hash function and prior transcript", "why_tests_cant": "soundness is a statement about all provers", "anchors": ["src/qesa_zk.rs: Zk::verify", "src/ipa/qesa_inner.rs: Inner::verify"]}
{"id": "C30", "title": "The first witness component is pinned to one", "statement": "For a proof made by the honest prover code, the commitment opened by the verifier equals the one used by the prover iff (x^2 - 1)*(w[0] - 1)*G_0 = 0, so a witness with w[0] != 1 yields a different commitment unless x^2 = 1.", "quantifier": "every witness, generator and non-zero challenge", "why_tests_cant": "needs all challenges", "anchors": ["src/ipa/qesa_inner.rs: create, Inner::verify"]}
{"id": "C31", "title": "QESA create panics on ill-shaped input, and exactly when verify panics", "statement": "qesa_inner::create returns only if G and H have one common length n = 2^q >= 4, w.len() = n-2, r'.len() = 2 and the block is not empty; for m x m matrices Zk::verify returns a verdict iff m >= 1, G and H have length m+2 = 2^(number of L points), fewer than 64 L points, and all points of the proof decompress; otherwise it panics.", "quantifier": "every input shape", "why_tests_cant": "all shapes", "anchors": ["src/ipa/qesa_inner.rs: create, Inner::verify"]}
{"id": "C32", "title": "commit is a Pedersen commitment on the selected generators", "statement": "commit(G, indices, msg, r) returns sum_j msg[j]*G[i_j] + r*G[last] where i_0 < i_1 < ... are the indices in increasing order; it panics iff the lengths differ, an index is out of range or G is empty; it is additively homomorphic in (msg, r).", "quantifier": "every generator vector, index set, message and blinding", "why_tests_cant": "all inputs", "anchors": ["src/copy/mapping.rs: commit"]}
{"id": "C33", "title": "commit is perfectly hiding and binding up to relations", "statement": "If the last generator generates the group, for any two messages there is a bijection of blindings that makes the commitments equal; and two different openings of one commitment on index sets avoiding the last generator give a non-trivial linear relation between the generators.", "quantifier": "every pair of messages and all blindings", "why_tests_cant": "distribution and all openings", "anchors": ["src/copy/mapping.rs: commit", "src/lmpa/simple_zk.rs: pedersen_commit"]}
{"id": "C34", "title": "compute_mapping gives every message its own free slot", "statement": "When compute_mapping(n, witness_size, sets) returns (n, witness_size and the number of sets below 2^16) it lists the messages of all sets in order, with ids 0..total-1, the j-th smallest index of their set, the number of their set, and pairwise distinct, strictly increasing positions inside [witness_size, n-2) that avoid every commitment index; last_index is the last of them.", "quantifier": "every n, witness size and list of index sets", "why_tests_cant": "all index sets", "anchors": ["src/copy/mapping.rs: compute_mapping"]}
{"id": "C35", "title": "compute_mapping takes the lowest free slots and panics exactly when there are too few", "statement": "The positions are the first total free slots of [witness_size, n-2) in increasing order; the function panics iff there is no message at all, n < 2 (as u16), or there are fewer free slots than messages.", "quantifier": "every n, witness size and list of index sets", "why_tests_cant": "all index sets", "anchors": ["src/copy/mapping.rs: compute_mapping"]}
{"id": "C36", "title": "Message slots and the 16-bit sizes of compute_mapping", "statement": "For n, witness_size < 65536 every returned position is at least witness_size and below n - 2. Finding: n and witness_size are truncated to 16 bits, so compute_mapping(n, ws) = compute_mapping(n mod 65536, ws mod 65536), it panics for every power of two n >= 65536, and for other large n a message can be placed inside the user's witness.", "quantifier": "every n, witness size and list of index sets", "why_tests_cant": "needs sizes above 2^16", "anchors": ["src/copy/mapping.rs: compute_mapping"]}
{"id": "C37", "title": "Copy prover and verifier build the same constraints, and they mean what they should", "statement": "For a mapping from compute_mapping, prover and verifier append the same matrices, one per used commitment index c in increasing order, and a vector w with w[0] = 1 satisfies the matrix of c iff w[c] equals the sum, over the messages m committed at c, of alpha_{set(m)} * w[position(m)].", "quantifier": "every mapping, challenge and vector", "why_tests_cant": "all mappings", "anchors": ["src/copy/copy.rs: create, Copy::verify"]}
{"id": "C38", "title": "Copy completeness", "statement": "For commitments made by commit, a mapping made by compute_mapping with commitment indices outside the user witness, a witness with w[0] = 1 and equations satisfied by the witness with the messages in place (not touching the reserved columns and rows), Copy::verify accepts the proof made by copy::create, under the same non-degeneracy conditions as QESA.", "quantifier": "every system, mapping, openings, random tape, hash outputs and prior transcript", "why_tests_cant": "everything is universally quantified", "anchors": ["src/copy/copy.rs: create, Copy::verify", "src/copy/mapping.rs: commit, compute_mapping"]}
{"id": "C39", "title": "Copy constraints force equality of witness slots and committed messages", "statement": "Fix the vector committed in C_w and the messages in the commitments (each with strictly increasing indices). If for more challenges than there are commitments the aggregated vector has first component one and satisfies all appended constraints, then every message slot holds the committed message, and the fixed vector is zero at the commitment indices.", "quantifier": "every mapping, vector and committed values", "why_tests_cant": "a polynomial argument over all challenges", "anchors": ["src/copy/copy.rs: create, Copy::verify"]}
{"id": "C40", "title": "Finding: Copy proofs can be forged", "statement": "For every system of equations, every mapping from compute_mapping and every list of points given as commitments (nobody needs to know an opening), an efficient forger without witness produces a proof that Copy::verify accepts, unless the challenge alpha of the inner argument is zero.", "quantifier": "every statement, true or false, all generators and hash functions", "why_tests_cant": "the tests only use honest provers", "anchors": ["src/copy/copy.rs: Copy::verify", "src/ipa/qesa_inner.rs: Inner::verify"]}
{"id": "C41", "title": "Finding: commitment index 0 is not rejected, and Copy with indices inside the witness fails", "statement": "compute_mapping accepts commitment index 0, the slot of the constant one (the result of its check is discarded). For the honest prover the constraint of commitment index c has the value -w'[0]*w[c], so it is violated whenever the user's witness is non-zero at c and w'[0] is non-zero; for c = 0 the prover's vector violates the constraint or has first component 0.", "quantifier": "every mapping, witness, messages and challenge", "why_tests_cant": "all index sets", "anchors": ["src/copy/mapping.rs: compute_mapping", "src/copy/copy.rs: create"]}
{"id": "C42", "title": "LMPA completeness", "statement": "For every n = 2^k, m >= 1, matrix A and witness w, NoZK::verify accepts the proof made by lmpa::no_zk::create for t = A*w, for every value of the challenges.", "quantifier": "every size, matrix, witness, hash outputs and prior transcript", "why_tests_cant": "everything is universally quantified", "anchors": ["src/lmpa/no_zk.rs: create, NoZK::verify"]}
{"id": "C43", "title": "LMPA special soundness for one row", "statement": "From the scalars in a tree of conversations with three pairwise distinct challenges per round, all accepted by NoZK::verify for a one-row A, an explicit extractor computes w with A*w = t; no assumption on the generators is needed.", "quantifier": "every n = 2^k, row, adversarial messages and challenge trees", "why_tests_cant": "soundness is a statement about all provers", "anchors": ["src/lmpa/no_zk.rs: NoZK::verify"]}
{"id": "C44", "title": "Finding: LMPA verify only checks row 0", "statement": "NoZK::verify has a closed form for every proof: for n = 2^q and A with n columns it panics unless the proof has at least q messages L and R, none of them empty, and A and t are not empty; otherwise the verdict is the folded equation of row 0 alone. Hence changing rows 1, 2, ... of A and t never changes the outcome, and for every first row and every w there is an accepted proof of a two-row statement that has no solution.", "quantifier": "every statement, proof, transcript and hash function", "why_tests_cant": "the tests only use true statements", "anchors": ["src/lmpa/no_zk.rs: NoZK::verify"]}
{"id": "C45", "title": "Finding: LMPA challenges do not bind the statement", "statement": "The transcript of NoZK::verify, hence every challenge, does not depend on A or t. For every proof with non-zero challenges and every row there is exactly one t that is accepted, computable after the challenges; for the zero row (with at least two entries in the case of NoZK) and every g != 0 a proof of a false statement (a non-zero t) is accepted by NoZK::verify and by SimpleZK::verify, unless one hash value is zero.", "quantifier": "every statement, proof, transcript and hash function", "why_tests_cant": "the tests only use honest provers", "anchors": ["src/lmpa/no_zk.rs: NoZK::verify", "src/lmpa/simple_zk.rs: SimpleZK::verify"]}
{"id": "C46", "title": "LMPA transcripts and proof shape", "statement": "no_zk::create absorbs exactly the L points, then the R points, then draws one challenge, per round; the honest proof has log2(n) rounds of m points each. simple_zk::create first absorbs the points of a = A*r and draws beta, and uses n random scalars. The verifiers absorb the same and end in the same transcript state.", "quantifier": "every input and prior transcript", "why_tests_cant": "order and labels matter for all inputs", "anchors": ["src/lmpa/no_zk.rs: create, NoZK::verify", "src/lmpa/simple_zk.rs: create, SimpleZK::verify"]}
{"id": "C47", "title": "k-ary LMPA completeness", "statement": "For n = c*k^d with 1 <= c < k, k >= 2, t = A*w and non-zero challenges, verify_lmpa_noZK accepts the proof of create_lmpa_noZK, the final check A'*w' = t' holds on every row, and both transcripts agree.", "quantifier": "every size, matrix, witness, hash outputs and prior transcript", "why_tests_cant": "everything is universally quantified", "anchors": ["src/lmpa/no_zk.rs: create_lmpa_noZK, lmpa_noZK::verify_lmpa_noZK"]}
{"id": "C48", "title": "Finding: k-ary LMPA verification ignores the statement", "statement": "verify_lmpa_noZK has a closed form: it compares row 0 of the proof's own A_Matrix times the proof's own w_Vec with a target computed from the last message and last challenge. For n = c*k^d with d >= 1 neither A nor t has any influence, and one fixed proof of zeros is accepted for every statement; for n < k every statement is accepted with a proof that contains its own matrix. The same holds for verify_general, which calls it.", "quantifier": "every statement, proof, transcript and hash function", "why_tests_cant": "the tests only use honest provers and true statements", "anchors": ["src/lmpa/no_zk.rs: lmpa_noZK::verify_lmpa_noZK", "src/lmpa/simple_zk.rs: SimpleZK_general::verify_general"]}
{"id": "C49", "title": "Termination of the LMPA loops", "statement": "no_zk::create stops after at most log2(n) rounds for n >= 1; for n = 0 it runs forever iff all rows of A are empty and panics otherwise. create_lmpa_noZK stops after at most log_k(n) rounds for k >= 2, divides by zero for k = 0 and runs forever for k = 1, n >= 1 and rectangular A. The verifiers stop on every input.", "quantifier": "every input", "why_tests_cant": "non-termination cannot be observed by a test", "anchors": ["src/lmpa/no_zk.rs: create, NoZK::verify, create_lmpa_noZK, lmpa_noZK::verify_lmpa_noZK"]}
{"id": "C50", "title": "SimpleZK completeness", "statement": "For every n = 2^k, m >= 1, A and w, SimpleZK::verify accepts the proof of simple_zk::create for t = A*w, for every random tape and every value of the challenges.", "quantifier": "every size, matrix, witness, tape, hash outputs and prior transcript", "why_tests_cant": "everything is universally quantified", "anchors": ["src/lmpa/simple_zk.rs: create, SimpleZK::verify"]}
{"id": "C51", "title": "SimpleZK is perfectly witness indistinguishable", "statement": "For two witnesses with A*w1 = A*w2 there is a bijection of random tapes under which simple_zk::create outputs exactly the same proof and leaves the same transcript.", "quantifier": "every pair of witnesses, all tapes, all hash functions", "why_tests_cant": "a statement about the whole output distribution", "anchors": ["src/lmpa/simple_zk.rs: create"]}
{"id": "C52", "title": "SimpleZK special soundness for one row", "statement": "From the scalars in trees of conversations for two distinct values of beta, all accepted by SimpleZK::verify for a one-row A, an explicit extractor computes w with A*w = t.", "quantifier": "every adversarial prover", "why_tests_cant": "soundness is a statement about all provers", "anchors": ["src/lmpa/simple_zk.rs: SimpleZK::verify"]}
{"id": "C53", "title": "Finding: create_general does not blind the witness", "statement": "simple_zk::create_general runs the k-ary argument on the unblinded witness: given the first message a, the rest of the proof does not depend on the random tape. For n < k the proof contains w itself, so that proofs for two different witnesses are always different.", "quantifier": "every input, witness pair and tape", "why_tests_cant": "a statement about the whole output distribution", "anchors": ["src/lmpa/simple_zk.rs: create_general"]}
{"id": "C54", "title": "create_general / verify_general completeness", "statement": "For n = c*k^d with 1 <= c < k and d >= 1 and non-zero challenges, verify_general accepts the proof of create_general for t = A*w. For n < k the honest proof is accepted only if t[0] = beta*t[0] + a[0] happens to hold.", "quantifier": "every size, matrix, witness, tape and hash outputs", "why_tests_cant": "everything is universally quantified", "anchors": ["src/lmpa/simple_zk.rs: create_general, SimpleZK_general::verify_general"]}
{"id": "C55", "title": "pedersen_commit is homomorphic", "statement": "pedersen_commit(H, G, m, r) = <m,G> + r*H, it panics iff the lengths of m and G differ, and a1*commit(m1,r1) + a2*commit(m2,r2) = commit(a1*m1+a2*m2, a1*r1+a2*r2).", "quantifier": "every input", "why_tests_cant": "the test uses one-element messages", "anchors": ["src/lmpa/simple_zk.rs: pedersen_commit"]}
{"id": "C56", "title": "Fiat-Shamir log of QESA", "statement": "The labelled messages and challenges that qesa_inner / qesa_zk create and verify add to the transcript are exactly c_prime_w, x, c_prime_prime_w, s, b, c_w followed by the log of AlmZK, carrying the bytes published in the proof; for a witness with w[0] = 1 that satisfies the batched equation, and x non-zero, prover and verifier end in the same transcript state, whatever the verdict.", "quantifier": "every input, proof (honest or not) and transcript history", "why_tests_cant": "a test compares one run; order and labels matter for all inputs", "anchors": ["src/ipa/qesa_inner.rs: create, Inner::verify", "src/qesa_zk.rs: create, Zk::verify"]}
{"id": "C57", "title": "Fiat-Shamir log of Copy", "statement": "copy::create and Copy::verify append to the transcript exactly c_w, the challenge alpha, and the log of qesa_inner, where the verifier absorbs the commitment it computed from the statement (sum of alpha^(i+1) C_i plus C_w) as c_prime_w, whatever the proof contains there.", "quantifier": "every input, proof (honest or not) and transcript history", "why_tests_cant": "order and labels matter for all inputs", "anchors": ["src/copy/copy.rs: create, Copy::verify"]}
{"id": "C58", "title": "Panic conditions of Copy", "statement": "For square systems, as many commitments as index sets, indices below n-2 and a mapping from compute_mapping, Copy::verify returns a verdict iff C_w, c_prime_prime_w, C_r and all L and R points decompress, H has the length n of G, and n is two to the number of L points. copy::create returns only if w[0] = 1, w has at most n-2 entries, there is at least one opening and as many as the mapping says, and G and H have the same length 2^q >= 4.", "quantifier": "every input and proof", "why_tests_cant": "all inputs", "anchors": ["src/copy/copy.rs: create, Copy::verify"]}
{"id": "C59", "title": "Finding: IPA challenges do not bind the statement", "statement": "All challenges of ipa::no_zk::verify are determined by the transcript before the call, n and the points of the proof. For every proof with non-zero challenges and every t exactly one P is accepted, and it can be computed after the challenges. For all a, b and every t != <a,b> the honest proof from a, b is accepted for some P with claimed product t; if the generators satisfy no relation, no vectors at all fulfil this claim.", "quantifier": "every proof, transcript, generators, vectors and t", "why_tests_cant": "a test would need to know the attack", "anchors": ["src/ipa/no_zk.rs: NoZK::verify"]}
{"id": "C60", "title": "Finding: AlmZK does not bind C_w and t before beta", "statement": "From the generators alone one computes a proof, a commitment C_w = <u,G> + <v,H> with known u, v and a value t != <u,v> that AlmZK::verify accepts, unless the challenge beta or alpha met is zero; if the generators satisfy no relation, no vectors at all fulfil the claim.", "quantifier": "every transcript, every n = 2^k, all generators", "why_tests_cant": "a test would need to know the attack", "anchors": ["src/ipa/alm_zk.rs: AlmZK::verify"]}
{"id": "C61", "title": "Special soundness of QESA", "statement": "Fix c_prime_w, c_prime_prime_w and a challenge x != 0. From accepted runs of Zk::verify for n-1 challenges s, three b each, three beta, two alpha and four challenges per IPA round, an explicit extractor that only sees scalars computes either a non-trivial relation between G, H and Q or u, r0, r1 with u^T M u = 0 for the batched matrix M such that c_prime_w + c_prime_prime_w is the commitment to (u, r0, r1) on the rescaled G, corrected by (1 - x^-2) G_0, plus the commitment to (M u, -r1, r0) on H.", "quantifier": "every size n = 2^q, system, generators, commitments and tree of accepted conversations", "why_tests_cant": "knowledge extraction is a statement about all provers", "anchors": ["src/qesa_zk.rs: Zk::verify", "src/ipa/qesa_inner.rs: Inner::verify"]}
{"id": "C62", "title": "Finding: QESA does not pin the first component", "statement": "The generator G_0 is rescaled by the square of the challenge x that also batches the equations. A prover committed to any w (w[0] = 1 not needed) before x is accepted by Zk::verify whenever w with first component 1 + x^2 (w[0] - 1) solves the batched equation. So the unsatisfiable system y = 1, 0 = 0, y = 0 is accepted for a commitment made before x, unless the challenge x or alpha is zero.", "quantifier": "every size n = 2^q >= 4, generators, transcript history, hash and masks", "why_tests_cant": "a test would need to know the attack", "anchors": ["src/ipa/qesa_inner.rs: create, Inner::verify", "src/qesa_zk.rs: Zk::verify"]}
{"id": "C63", "title": "What acceptance by QESA means", "statement": "If the generators satisfy no relation and c_prime_w opens to (w, r0, r1) on G and c_prime_prime_w to some vector on H, accepted conversation trees exist for some such vector on H and x != 0 (in a field with enough elements, all of which can be challenges) iff w with first component 1 + x^2 (w[0] - 1) solves the batched equation. If moreover w[0] = 1 and trees exist for as many distinct non-zero x as there are equations, then w solves each of the first n equations.", "quantifier": "every size n = 2^q >= 4, system, generators, commitments", "why_tests_cant": "a statement about all provers", "anchors": ["src/qesa_zk.rs: Zk::verify", "src/ipa/qesa_inner.rs: Inner::verify"]}
{"id": "C64", "title": "Soundness error of the inner-product arguments", "statement": "Draw the challenges uniformly from N non-zero scalars, n = 2^q. A prover (any strategy) accepted by ipa::no_zk verify for more than N^(q+1) - (N-1)(N-3)^q of the N^(q+1) challenge sequences has a tree of conversations from which the extractor computes a witness or a relation between the generators; for AlmZK the bound is N^(q+2) - (N-2)(N-1)(N-3)^q. Hence, without relations, false claims are accepted for at most (3q+1) N^q of N^(q+1), resp. (3q+3) N^(q+1) of N^(q+2) sequences. The honest IPA and AlmZK provers of a true claim are accepted for all sequences.", "quantifier": "every prover strategy, claim, size, generators and challenge set", "why_tests_cant": "a statement about all provers and a probability", "anchors": ["src/ipa/no_zk.rs: NoZK::verify", "src/ipa/alm_zk.rs: AlmZK::verify"]}
{"id": "C65", "title": "Soundness error of QESA for well-formed commitments", "statement": "For fixed commitments and x != 0, a prover accepted by Zk::verify for more than N^(q+4) - (N-(n-2))(N-2)^2(N-1)(N-3)^q of the N^(q+4) remaining challenge sequences yields, by the extractor, an opening that solves the batched equation, or a relation. If the generators have no relation and the prover commits on G to w with w[0] = 1 and on H after x, and w violates one of the first n equations, it is accepted for at most (k + n + 3q + 3) N^(q+4) of the N^(q+5) challenge sequences, k + 1 being the number of equations and n >= 4.", "quantifier": "every prover strategy, system, size, generators and challenge set", "why_tests_cant": "a statement about all provers and a probability", "anchors": ["src/qesa_zk.rs: Zk::verify", "src/ipa/qesa_inner.rs: Inner::verify"]}
{"id": "C66", "title": "Soundness error of LMPA and SimpleZK for one row", "statement": "A prover (any strategy) accepted by lmpa NoZK::verify for a one-row statement and more than 2q N^(q-1) of the N^q challenge sequences, resp. by SimpleZK::verify for more than (2q+1) N^q of the N^(q+1), has a tree of conversations from whose scalars the extractor computes w with <w,row> = t. The honest provers of both are accepted for all sequences.", "quantifier": "every prover strategy, row, target, size and challenge set", "why_tests_cant": "a statement about all provers and a probability", "anchors": ["src/lmpa/no_zk.rs: NoZK::verify", "src/lmpa/simple_zk.rs: SimpleZK::verify"]}
{"id": "C67", "title": "IPA is sound as a non-interactive argument (random oracle, algebraic provers)", "statement": "Model the hash as a uniformly random function and the prover as an adaptive algorithm that makes at most T hash queries and gives, with every point it sends or hashes, coefficients with respect to G, H, Q. Fix P (with coefficients) and t such that the claim is false. The probability that no_zk verify accepts its proof, and that none of the relations read off from the run (difference of the two sides of the verification equation, differences of two representations) is a non-trivial relation between the generators, is at most 3 (T + q + 1) (1/l + 2^-512) for scalars modulo l and n = 2^q generators.", "quantifier": "every such prover, claim, size, transcript history, generators", "why_tests_cant": "a statement about all provers and a probability", "anchors": ["src/ipa/no_zk.rs: NoZK::verify", "src/transcript.rs: challenge_scalar"]}
{"id": "C68", "title": "AlmZK is sound as a non-interactive argument (random oracle, algebraic provers)", "statement": "In the same model: for a fixed commitment C_w (with coefficients) and t such that Q occurs in C_w or the product of the two vectors is not t, AlmZK::verify accepts the proof of a T-query algebraic prover without a relation being read off with probability at most 3 (T + q + 2) (1/l + 2^-512).", "quantifier": "every such prover, claim, size, transcript history, generators", "why_tests_cant": "a statement about all provers and a probability", "anchors": ["src/ipa/alm_zk.rs: AlmZK::verify", "src/transcript.rs: challenge_scalar"]}
{"id": "C69", "title": "QESA is sound as a non-interactive argument for provers that commit correctly", "statement": "In the same model: fix the equations. An algebraic prover that chooses its commitments adaptively, c_prime_w on G only with first coefficient one and c_prime_prime_w on H only, is accepted by Zk::verify although the vector in c_prime_w violates one of the first n equations, and without a relation being read off, with probability at most (T + q + 5) n (1/l + 2^-512), n = 2^q >= 4. (By C29 and C62 the restrictions on the commitments cannot be dropped.)", "quantifier": "every such prover, system, size, transcript history, generators", "why_tests_cant": "a statement about all provers and a probability", "anchors": ["src/qesa_zk.rs: Zk::verify", "src/ipa/qesa_inner.rs: Inner::verify", "src/transcript.rs: challenge_scalar"]}
{"id": "C70", "title": "Copy is sound as a non-interactive argument for provers that commit correctly", "statement": "In the same model: fix the user's equations (without coefficients at commitment indices), the index sets and the commitments to messages. An algebraic prover that chooses C_w (on G only, first coefficient one) and c_prime_prime_w (on H only) adaptively is accepted by Copy::verify although the vector in C_w violates a user equation, or the slot that compute_mapping gave to some message does not hold the message committed to, and without a relation being read off, with probability at most (T + q + 6) max(n, number of commitments) (1/l + 2^-512), n = 2^q, if user equations and copy constraints are at most n in number and index 0 is not used.", "quantifier": "every such prover, system, index sets, messages, size, transcript history, generators", "why_tests_cant": "a statement about all provers and a probability", "anchors": ["src/copy/copy.rs: Copy::verify", "src/copy/mapping.rs: compute_mapping", "src/transcript.rs: challenge_scalar"]}
{"id": "C71", "title": "LMPA and SimpleZK are sound as non-interactive arguments (random oracle)", "statement": "Model the hash as a uniformly random function. Fix a matrix of width 2^q and a target whose first entry is no linear combination of the first row. Whatever proof an adaptive algorithm with T hash queries outputs (any number of points per message), lmpa NoZK::verify accepts it with probability at most 2 (T + q) (1/l + 2^-512), SimpleZK::verify with at most 2 (T + q + 1) (1/l + 2^-512). In the cyclic group of the code this concerns rows of zeros only; for algebraic provers the same bounds hold whenever the coefficient vector of the target is no linear combination of those of the row, except with a non-trivial relation between the generators read off from the run.", "quantifier": "every such prover, matrix, target, size, transcript history", "why_tests_cant": "a statement about all provers and a probability", "anchors": ["src/lmpa/no_zk.rs: NoZK::verify", "src/lmpa/simple_zk.rs: SimpleZK::verify", "src/transcript.rs: challenge_scalar"]}
{"id": "C72", "title": "Finding: AlmZK with two generators does not mask b", "statement": "The two scalars of an honest IPA proof are linear forms of the vectors whose coefficients are products of the round challenges. With vectors of length two and <a,a> != 0 the second mask drawn by alm_zk::create is zero for every random tape: C_r contains no generator of H, and the second scalar of the proof is beta (b0 + x b1) for challenges beta, x recomputable from the proof. So everybody can test a guess of b, and two proofs by the same prover with different x and non-zero beta reveal b by an explicit formula.", "quantifier": "every random tape, hash, transcript history, generators and vectors", "why_tests_cant": "tests only check that proofs are accepted; here all proofs are", "anchors": ["src/ipa/alm_zk.rs: create", "src/ipa/gramschmidt.rs: sample_gram_schmidt_twice", "src/ipa/no_zk.rs: create"]}
{"id": "C73", "title": "QESA and Copy commitments hide the witness perfectly", "statement": "In a cyclic group, let the last two generators have discrete logarithms g0, g1 (in G) and h0, h1 (in H) with g0 h0 + g1 h1 != 0. For every witness and every pair of points there is exactly one choice of the first two random scalars for which a proof returned by qesa_zk::create has this pair as (c_prime_w, c_prime_prime_w); likewise for (C_w, c_prime_prime_w) of copy::create, whatever the messages and their randomness. So the pair carries no information about the witness.", "quantifier": "every witness, system, size, hash, transcript history and pair of points", "why_tests_cant": "a statement about the distribution of proofs", "anchors": ["src/qesa_zk.rs: create", "src/ipa/qesa_inner.rs: create", "src/copy/copy.rs: create"]}
{"id": "C74", "title": "Completeness error of IPA and AlmZK", "statement": "Let the hash be a uniformly random function (and the prover's tape uniformly random). For every pair of vectors of the right lengths an honest ipa::no_zk run returns a proof that verify accepts, except with probability at most B/2^512, B being the largest number of 64-byte strings with the same value modulo l. For alm_zk with n = 2^k >= 4 generators, non-isotropic a and b, and a, b and the part of a orthogonal to b not vanishing on the positions sampled by the sparse sampler, an honest run (no panic, proof accepted) fails with probability at most 7/l + B/2^512. The condition cannot be dropped: if a is a multiple of b and <b,b> != 0, alm_zk::create panics for every tape.", "quantifier": "every size, vectors, generators, transcript history", "why_tests_cant": "a statement about the probability of rare failures", "anchors": ["src/ipa/no_zk.rs: create, verify", "src/ipa/alm_zk.rs: create, verify", "src/ipa/gramschmidt.rs: orth, sample_gram_schmidt, sample_gram_schmidt_twice"]}
{"id": "C75", "title": "Completeness error of QESA and Copy", "statement": "Let the hash be a uniformly random function and the prover's tape uniformly random, n = 2^e >= 4 generators. For every satisfied system of quadratic equations (w[0] = 1) an honest run of qesa_zk (no panic in create or verify, proof accepted) fails with probability at most 7/l + 14 B/2^512, B being the largest number of 64-byte strings with the same value modulo l. The same bound holds for copy::create / Copy::verify, with commitments made by commit and the mapping of compute_mapping, if all commitment indices lie between the user's witness and the last two generators and the user's equations hold for the extended witness. So, unlike for AlmZK alone (C74), no condition on the vectors is left: the challenges s and b make them generic.", "quantifier": "every system, witness, commitments, size, generators, transcript history", "why_tests_cant": "a statement about the probability of rare failures", "anchors": ["src/qesa_zk.rs: create, verify", "src/ipa/qesa_inner.rs: create, verify", "src/copy/copy.rs: create, verify", "src/copy/mapping.rs: compute_mapping, commit"]}
{"id": "C76", "title": "Finding: test_random_compute_mapping fails for some of its random choices", "statement": "Draw two numbers for each of four commitments. The test passes exactly when the number of different indices plus the number of messages (the sizes of the index sets, a number drawn twice for the same commitment counting once) is at most n - 3. With n = 18, the size in the code, and indices in [2, 15) it fails exactly when the eight numbers are different: 51891840 of the 13^8 equally likely outcomes, more than six in a hundred. With n >= 19 it passes for all of them.", "quantifier": "every outcome of the random choices, every size below 65536", "why_tests_cant": "a test that passes says nothing about the random choices it did not make", "anchors": ["src/copy/mapping.rs: test_random_compute_mapping, compute_mapping"]}
{"id": "C77", "title": "The tests of math_utils and lmpa pass for all random values; one of them checks too little", "statement": "test_vandermonde, test_lmpa_no_zk_create_verify, test_lmpa_simple_zk_create_verify, test_lmpa_simple_zk_create_verify_efficient_communication, test_commitment_combination and test_lmpa_batch pass for all outcomes of Scalar::random and RistrettoPoint::random and all hash functions. Finding: test_lmpa_batch still passes if the verifier is given any other points behind the commitment c_w, so it does not check the claim A w = t.", "quantifier": "all random values and hash functions", "why_tests_cant": "a test that passes says nothing about the random choices it did not make", "anchors": ["src/math_utils.rs: test_vandermonde", "src/lmpa/no_zk.rs: test_lmpa_no_zk_create_verify", "src/lmpa/simple_zk.rs: test_lmpa_simple_zk_create_verify, test_lmpa_simple_zk_create_verify_efficient_communication, test_commitment_combination, test_lmpa_batch"]}
{"id": "C78", "title": "Completeness error of the k-ary LMPA arguments", "statement": "Let the hash be a uniformly random function. For a matrix of width c k^d with 0 < c < k and at least one row, a witness of that length and the true target, an honest run of create_lmpa_noZK and verify_lmpa_noZK (no panic, proof accepted) fails with probability at most d B/2^512, B being the number of 64-byte strings that are zero modulo l. The same holds for create_general and verify_general with d >= 1, for every random tape. So test_lmpa_noZK_merlin and test_lmpa_ZK_merlin (k = 5, d = 3) fail with probability at most 3 B/2^512 whatever their random scalars and points are.", "quantifier": "every size, matrix, witness, random tape, transcript history", "why_tests_cant": "a statement about the probability of rare failures", "anchors": ["src/lmpa/no_zk.rs: create_lmpa_noZK, verify_lmpa_noZK, test_lmpa_noZK_merlin", "src/lmpa/simple_zk.rs: create_general, verify_general, test_lmpa_ZK_merlin"]}
{"id": "C79", "title": "SimpleZK is perfectly zero knowledge in the random-oracle model", "statement": "Let the hash be a uniformly random function and the prover's tape uniformly random. There is a simulator that gets the matrix, the target t = A w and the transcript history, but not w, draws a random vector z and 64 random bytes v, and changes the hash function at one history. For every event that depends on the hash function and on what simple_zk::create returns (proof, transcript, panic) the probability is exactly the same for prover and simulator. If an adversary chooses history, non-zero matrix, generators and witness after T hash queries, the probabilities differ by at most T/l. Under the changed hash function SimpleZK::verify accepts the simulated proofs, also those of false statements.", "quantifier": "every matrix, witness, generators, transcript history, event", "why_tests_cant": "a statement about the distribution of proofs", "anchors": ["src/lmpa/simple_zk.rs: create, verify"]}
{"id": "C80", "title": "When and how often the Gram-Schmidt and inner-product tests fail", "statement": "test_orth passes exactly if <a,a> != 0 and <a,b> != 0; test_sample_gram_schmidt exactly if <a,a> != 0 and <a,s> != 0, s being the sparse sample; test_sample_gram_schmidt_twice, for <a,a> != 0, exactly if <a,b>, <a,s>, <o,s> and <o,o> are not zero, o being the part of b orthogonal to a. With uniformly random scalars they fail with probability at most 3/l, 3/l and 7/l. With a uniformly random hash, test_create_nozk_proof fails with probability at most B/2^512 for all scalars and points, and test_create_almzk_proof with at most 12/l + B/2^512 for all points (B: number of 64-byte strings that are zero modulo l).", "quantifier": "all random values, points and hash functions", "why_tests_cant": "a test that passes says nothing about the random choices it did not make", "anchors": ["src/ipa/gramschmidt.rs: test_orth, test_sample_gram_schmidt, test_sample_gram_schmidt_twice", "src/ipa/no_zk.rs: test_create_nozk_proof", "src/ipa/alm_zk.rs: test_create_almzk_proof"]}
{"id": "C81", "title": "When and how often the QESA and Copy tests fail", "statement": "helper_create_solutions(n, k) with n, k > 0 returns exactly if the witness w (first entry one) satisfies <w,w> != 0 and is orthogonal to none of the drawn rows; it returns k matrices that map w to zero, whose rows differ from the drawn ones by multiples of w. test_helper_solutions passes exactly in this case, and fails with probability at most 38/l. helper_create_solutions_vatalik_g1 always returns a satisfied system and test_helper_solutions_vitalik_g1 always passes. With a uniformly random hash and uniformly random scalars, and for all points, test_create_qesa_inner_proof fails with probability at most 13/l + 14 B/2^512, and test_create_qesa_inner_proof_vitalik_g1, test_copy_proof_creation and test_copy_proof_creation_single_commit with at most 7/l + 14 B/2^512.", "quantifier": "all random values, points and hash functions", "why_tests_cant": "a test that passes says nothing about the random choices it did not make", "anchors": ["src/ipa/qesa_inner.rs: helper_create_solutions, helper_create_solutions_vatalik_g1, test_helper_solutions, test_helper_solutions_vitalik_g1, test_create_qesa_inner_proof, test_create_qesa_inner_proof_vitalik_g1", "src/copy/copy.rs: test_copy_proof_creation, test_copy_proof_creation_single_commit"]}
{"id": "C82", "title": "The three tests on f64 numbers", "statement": "With exact arithmetic (any field with 2 != 0), test_lmpa_noZK_float passes for all sizes k >= 2, d, m >= 1; its loop, run on any matrix A, vector w, target t and challenge x != 0, ends with equal vectors exactly if A w = t. test_lmpa_almSnd_float_1 (d = 1) and test_lmpa_almSnd_float_2 also pass for all sizes, but the vectors they compare do not depend on the target t_expected, and they agree for all matrices and vectors. With the sizes of the code, all three pass for floating-point numbers, with any rounding that keeps the numbers with a 53-bit significand and an exponent between -1074 and 971.", "quantifier": "all sizes, matrices, vectors, targets and nonzero challenges; all roundings for the sizes of the code", "why_tests_cant": "the tests run with one matrix and one challenge; that two of them ignore the target cannot be seen from a passing run", "anchors": ["src/lmpa/no_zk.rs: test_lmpa_noZK_float, test_lmpa_almSnd_float_1, test_lmpa_almSnd_float_2"]}
{"id": "C83", "title": "When AlmZK create and verify return, and what the verdict is", "statement": "AlmZK::verify returns a verdict exactly if C_r can be decoded and the inner NoZK proof can be verified for the same generators and n; otherwise it panics. alm_zk::create never runs forever and returns exactly if G_Vec, H_Vec and b have 2^k entries for some k >= 1, a has at least as many, and none of the four inner products that gramschmidt::orth inverts around is zero. a may be longer than b; then, unless a challenge is zero or one of the vectors that orth projects on is isotropic, the proof is accepted exactly if (beta + <a,r'>/<a,a>) <a,r''> Q = 0 with r', r'' the two masks, so create can return a proof that verify rejects.", "quantifier": "all inputs, random tapes, hash functions", "why_tests_cant": "tests only use vectors of one length and never reach the panics", "anchors": ["src/ipa/alm_zk.rs: create, verify", "src/ipa/gramschmidt.rs: orth, sample_gram_schmidt"]}
{"id": "C84", "title": "When the binary LMPA arguments return", "statement": "Let q be the binary logarithm of n rounded down. lmpa::no_zk::create returns exactly if G_Vec is not empty, the length of every row of A is a multiple of 2^q and w has at least 2^q entries; for a rectangular A with n columns this means that n is a power of two. NoZK::verify returns exactly if n = |G_Vec| > 0, A and t are not empty, the length of every row of A is a multiple of 2^q, and the proof has at least q messages L and R, the first q of them not empty. simple_zk::create returns on the same inputs as no_zk::create, and SimpleZK::verify on the same as NoZK::verify if a is not empty. On all other inputs they panic or run forever.", "quantifier": "all inputs of any shape, hash functions, random tapes", "why_tests_cant": "the set of accepted shapes is infinite and includes shapes nobody would test", "anchors": ["src/lmpa/no_zk.rs: create, verify", "src/lmpa/simple_zk.rs: create, verify"]}
{"id": "C85", "title": "When the k-ary LMPA arguments return", "statement": "create_lmpa_noZK returns exactly if n < k, or k >= 2 and there are 0 < c < k and d >= 1 such that, with W = c k^d, W <= n < W + k, w has W entries, t has m entries, the first row of A is not empty, every row is empty or has W entries, and m rows are not empty. create_general returns on the same inputs. verify_lmpa_noZK returns exactly if A_Matrix of the proof is not empty and either n < k and t is not empty, or k >= 2, n >= k and, with c = n / k, the first row of A is the longest, its length is a multiple of c and at least k c, every row is empty or at least k c long, n/k^i is a multiple of n/k^(i+1) in every later round i, and the proof has a message of at least 2k-1 entries of equal length for each round (not empty in the last one). verify_general returns on the same inputs, if for n < k also a is not empty. On all other inputs they panic or (k = 1) run forever.", "quantifier": "all inputs of any shape, hash functions, random tapes", "why_tests_cant": "the set of accepted shapes is infinite and includes shapes nobody would test", "anchors": ["src/lmpa/no_zk.rs: create_lmpa_noZK, verify_lmpa_noZK", "src/lmpa/simple_zk.rs: create_general, verify_general"]}
{"id": "C86", "title": "When QESA and Copy return", "statement": "For matrices and mappings of any shape, with n the number of generators. block_matrix_batch returns exactly if there are a matrix and a challenge and the matrices that get a challenge agree in the number of rows and row by row in length. QESA verify (inner and zk) returns exactly if n = |G_Vec| = |H_Vec| >= 3, the first n matrices agree in this sense, their first row has n-2 entries and no row has more, all points of the proof decode and n is two to the number of points L (below 64); the number of rows is not checked. QESA create returns only if n = |H_Vec| is a power of two and at least 4, the witness has n-2 entries, there are two masks, and the matrices moreover have n-2 rows; on all such inputs it returns or fails an assertion, and for square matrices it returns exactly if none of the four inner products that orth divides by is zero. Copy verify returns exactly if there is a commitment, the commitment indices of the mapping are below n-2, each message of such an index is at a position below n-2 and names one of the commitments, and QESA verify returns on the matrices with an (n-2) by (n-2) matrix added for each index. copy create returns only if moreover the number of openings is the one in the mapping, the witness starts with 1 and has at most n-2 entries, and all messages of the mapping are in range; on all such inputs it returns or fails an assertion.", "quantifier": "all inputs of any shape, hash functions, random tapes", "why_tests_cant": "the set of accepted shapes is infinite and includes ragged matrices and mappings that nobody would test", "anchors": ["src/ipa/qesa_inner.rs: create, verify", "src/qesa_zk.rs: create, verify", "src/copy/copy.rs: create, verify", "src/matrix.rs: block_matrix_batch"]}
{"id": "C87", "title": "Security levels over the Ristretto group", "statement": "l = 2^252 + 27742317777372353535851937790883648493 is a prime, every commutative group with l x = 0 is a vector space over the integers modulo l in which multiplication is repeated addition, and at most 2^260 of the 2^512 byte strings reduce to the same scalar. For this field and every such group: QESA with at most 2^16 generators and Copy accept a false statement of an algebraic prover with at most 2^100 hash queries that commits as the honest prover does, without giving away a relation between the generators, with probability at most 2^-135; the binary LMPA arguments with at most 2^64 columns accept a false statement of any prover with at most 2^100 queries with probability at most 2^-150; honest runs of QESA and Copy fail with probability at most 2^-246, and so does each of the tests of C78, C80 and C81 (not so test_random_compute_mapping, see C76).", "quantifier": "all groups of exponent l, generators, statements, provers, point encodings", "why_tests_cant": "probabilities of 2^-135 cannot be measured, and the order is never tested for primality", "anchors": ["Cargo.toml: curve25519-dalek", "src/qesa_zk.rs: create, verify", "src/copy/copy.rs: create, verify", "src/lmpa/no_zk.rs: verify", "src/lmpa/simple_zk.rs: verify", "src/transcript.rs: challenge_scalar"]}
{"id": "C88", "title": "Builds without overflow checks", "statement": "In a release build on a 64-bit target subtractions wrap around and 1 << k takes k modulo 64. For vectors of fewer than 2^58 elements: the provers of AlmZK, QESA and Copy, and create_lmpa_noZK and verify_lmpa_noZK, return exactly when they do in a build with overflow checks, and the same. The verifiers of NoZK, AlmZK, QESA and Copy return r exactly if the checked verifier returns r for the proof cut down to the first L_vec.len() % 64 points of L_vec, provided that fewer than 64 points were there or that all of L_vec decodes and R_vec is not longer than what is left. So proofs are malleable in release builds (64 arbitrary points appended to L_vec of an accepted proof with no more R than L points leave it accepted, while the checked verifier panics), but the soundness bounds of QESA and Copy (C69, C70) hold for the cut-down proof. compute_mapping is the same if n modulo 65536 is at least 2; otherwise the checked function panics, and the other one returns distinct slots below 65534 + n % 65536, which are the right ones for n = 65536 but outside the generators for n = 0 and 1.", "quantifier": "all proofs, inputs, random tapes and hash functions", "why_tests_cant": "cargo test builds with overflow checks, so no test ever runs the other code", "anchors": ["src/ipa/no_zk.rs: verify", "src/ipa/alm_zk.rs: create, verify", "src/ipa/qesa_inner.rs: create, verify, compute_gamma_prime", "src/qesa_zk.rs: create, verify", "src/copy/copy.rs: create, verify", "src/copy/mapping.rs: compute_mapping", "src/lmpa/no_zk.rs: create_lmpa_noZK, verify_lmpa_noZK", "src/math_utils.rs: vandemonde_challenge", "src/matrix.rs: vandemonde_vector", "src/ipa/gramschmidt.rs: sample_m_n_plus"]}
{"id": "C89", "title": "What QESA proves, whatever the prover commits to", "statement": "In the random-oracle model, for algebraic provers without any condition on their commitments: let (g, h, c) be the coefficients of c_prime_w + c_prime_prime_w on G, H and Q and x the first challenge. Except with probability (T + q + 5) n (1/l + 2^-512) (n = 2^q generators, T hash queries), a proof accepted by Zk::verify has c = 0, u^T M u = 0 for the batched matrix M and u = g with first component 1 + x^2 (g_0 - 1), and h the image of u and the masks, or a relation between the generators can be read off. If c_prime_prime_w has no component on G (c_prime_w being arbitrary), then except with probability (T + q + 5) (n + 4) (1/l + 2^-512) an accepted proof has, for all j, e_j(v) + d s_{j-2}(v) + d^2 a_{j-4} = 0, where w are the coefficients of c_prime_w on G, v is w with first component one, d = w_0 - 1, and e_j, s_j, a_j are value, derivative by the first variable and coefficient (0,0) of the j-th of the first n equations (zero for other j). Conversely a prover committed to such a w before it sees x is accepted unless x or alpha is zero. For w_0 = 1 these are the equations themselves.", "quantifier": "all equations, provers, transcripts and hash functions", "why_tests_cant": "a test runs one prover; the statement is about all provers and pins down the exact language of the verifier", "anchors": ["src/ipa/qesa_inner.rs: verify", "src/qesa_zk.rs: verify", "src/ipa/alm_zk.rs: verify", "src/ipa/no_zk.rs: verify"]}
{"id": "C90", "title": "The last message of a proof is determined, other fields are not", "statement": "If two proofs of NoZK (or AlmZK, QESA, Copy) that agree in all points are accepted for the same statement and transcript and their last messages (a, b) differ, then an explicit vector computed from the two proofs and the challenges is a non-trivial relation between G_Vec, H_Vec and Q (for QESA and Copy if the challenge x is not zero). So nobody who cannot break the discrete logarithm can alter the last message of a proof. For the binary LMPA argument two accepted proofs with the same first log n messages and different w give a non-trivial relation between the entries of row 0 of A. In contrast, the field c_prime_w inside a Copy proof is never read (any bytes will do), messages of the binary LMPA argument beyond the first log n are never read, and of a k-ary proof t_Vec, the rows of A_Matrix after the first and surplus messages are never read, and A_Matrix and w_Vec can be replaced by any pair with the same product in row 0.", "quantifier": "all proofs, statements, transcripts, generators and hash functions", "why_tests_cant": "a test cannot try all altered proofs, and in a real group no test can exhibit the relation", "anchors": ["src/ipa/no_zk.rs: verify", "src/ipa/alm_zk.rs: verify", "src/ipa/qesa_inner.rs: verify", "src/copy/copy.rs: verify", "src/lmpa/no_zk.rs: verify, verify_lmpa_noZK"]}
{"id": "C91", "title": "What Copy proves, whatever the prover commits to", "statement": "In the random-oracle model, for algebraic provers. (1) Without any condition on the prover or on the commitments Cs: with C = sum alpha^j C_j + C_w + c_prime_prime_w, except with probability (T + q + 6) n (1/l + 2^-512) an accepted proof has the properties of C89 for C and the system of Copy for alpha, or a relation between the generators can be read off. (2) If c_prime_prime_w has no component on G and the Cs are commitments to messages: if the vector in C_w starts with one, it solves the user's equations and holds the messages in their slots, except with the probability of C70, whatever else C_w and c_prime_prime_w contain. (3) In general, except with probability (T + q + 6) max(n + 4, |Cs|) (1/l + 2^-512), the conditions of C89 hold for the aggregated vector for every value of alpha, and the slots of the messages in C_w hold exactly the messages that the Cs were made of: a prover may break the user's equations by a first component other than one, but never the equality of messages. Conversely every vector that satisfies these conditions for every alpha is accepted, unless a challenge is zero.", "quantifier": "all equations, messages, provers, transcripts and hash functions", "why_tests_cant": "a test runs one prover; the statement is about all provers and pins down the exact language of the verifier", "anchors": ["src/copy/copy.rs: verify", "src/copy/mapping.rs: compute_mapping", "src/ipa/qesa_inner.rs: verify"]}
{"id": "C92", "title": "Forking: knowledge soundness of the non-interactive inner-product arguments for arbitrary provers", "statement": "In the random-oracle model, for arbitrary (not only algebraic) provers with T hash queries. The forking lemma: for at most (T + k)(M - 1) out of 2^512 hash functions a prover is accepted but cannot be rewound M-fold at every challenge of its proof (k hash queries of the verifier). Knowledge soundness: except with probability 3 (T + q + 1)(1/l + 2^-512), if NoZK accepts a prover for n = 2^q, then by running the prover again with hash functions that differ from the given one in at most q + 1 answers one obtains a tree of accepted conversations from whose scalars the extractor of C21 computes a, b with P = <a,G> + <b,H> + t Q and <a,b> = t, or else a non-trivial relation between G_Vec, H_Vec and Q. The same for AlmZK with one more challenge and the extractor of C25. In particular if there is no relation at all and the claim is false, no prover whatsoever is accepted with a greater probability.", "quantifier": "all provers (arbitrary adaptive query strategies), statements, generators, transcripts and, up to the stated fraction, hash functions", "why_tests_cant": "a test runs one prover; the statement is about all provers and about reruns of the same prover with other hash functions", "anchors": ["src/ipa/no_zk.rs: verify", "src/ipa/alm_zk.rs: verify"]}
{"id": "C93", "title": "Forking: knowledge soundness of QESA for arbitrary provers", "statement": "In the random-oracle model, for arbitrary provers of QESA with T hash queries and n = 2^q generators (witnesses of length n - 2). Knowledge soundness: except with probability (T + q + 5) max(n - 2, 3) (1/l + 2^-512), if Zk::verify accepts a prover with challenge x nonzero, then by running the prover again with hash functions that differ in at most q + 4 answers one obtains trees of accepted conversations with the same c_prime_w, c_prime_prime_w and x, from whose scalars the extractor of C61 computes an opening of c_prime_w + c_prime_prime_w to a solution of the batched equation, or else a non-trivial relation between the generators; x = 0 has probability at most (T + 1)(1/l + 2^-512). Soundness: if there is no relation between the generators, then except with probability (T + q + 5) (n + 4) (1/l + 2^-512) every accepted prover whose c_prime_prime_w is a combination of the H has in c_prime_w a commitment to a vector w on the G (and anything on the H) that satisfies the conditions of C89. In particular no prover is accepted with greater probability if c_prime_w is a commitment to a vector with first component one that violates one of the first n equations.", "quantifier": "all provers (arbitrary adaptive query strategies), equations, generators, transcripts and, up to the stated fraction, hash functions", "why_tests_cant": "a test runs one prover; the statement is about all provers and about reruns of the same prover with other hash functions", "anchors": ["src/qesa_zk.rs: verify", "src/ipa/qesa_inner.rs: verify", "src/ipa/alm_zk.rs: verify"]}
{"id": "C94", "title": "Forking: knowledge soundness of Copy for arbitrary provers", "statement": "In the random-oracle model, for arbitrary provers of Copy with T hash queries and n = 2^q generators. Knowledge soundness: except with probability (T + q + 6) max(n - 2, 3) (1/l + 2^-512), if Copy::verify accepts a prover with x nonzero, then by running the prover again with hash functions that differ in at most q + 4 answers one obtains trees of accepted conversations with the same C_w, c_prime_prime_w, alpha and x, from whose scalars the extractor of C61 computes an opening of sum alpha^j C_j + C_w + c_prime_prime_w to a solution of the batched equation of the system of Copy, or else a non-trivial relation between the generators; x = 0 has probability at most (T + 2)(1/l + 2^-512). Soundness: let the Cs be commitments to messages and let there be no relation between the generators. Except with probability (T + q + 6) max(n + 4, |Cs|) (1/l + 2^-512), every accepted prover whose c_prime_prime_w is a combination of the H has in C_w a commitment to a vector v on the G (and anything on the H) that holds in the slots of the messages exactly the messages of the Cs, and the conditions of C89 hold for the aggregated vector for every value of alpha; if v starts with one, v solves the user's equations.", "quantifier": "all provers (arbitrary adaptive query strategies), equations, messages, generators, transcripts and, up to the stated fraction, hash functions", "why_tests_cant": "a test runs one prover; the statement is about all provers and about reruns of the same prover with other hash functions", "anchors": ["src/copy/copy.rs: verify", "src/copy/mapping.rs: compute_mapping", "src/ipa/qesa_inner.rs: verify"]}
{"id": "C95", "title": "Forking: knowledge soundness of the linear-map arguments for arbitrary provers", "statement": "In the random-oracle model, for arbitrary provers with T hash queries and n = 2^q columns. Knowledge soundness of the binary LMPA argument: except with probability 2 (T + q)(1/l + 2^-512), if verify accepts a prover, then by running the prover again with hash functions that differ in at most q answers one obtains a tree of accepted conversations from whose scalars the extractor of C43 computes a vector w of length n with <w, first row> = first entry of t, without any alternative (no relation between generators, no assumption on discrete logarithms). The same for SimpleZK with q + 1 challenges, the same message a in all conversations, two values of beta and the extractor of C52. Only the first row is extracted: the other rows are not checked (C40). The prover may send any number of points per message; the histories are recognized by their number of challenges.", "quantifier": "all provers (arbitrary adaptive query strategies), matrices, targets, transcripts and, up to the stated fraction, hash functions", "why_tests_cant": "a test runs one prover; the statement is about all provers and about reruns of the same prover with other hash functions", "anchors": ["src/lmpa/no_zk.rs: verify, verify_lmpa_noZK", "src/lmpa/simple_zk.rs: verify"]}
{"id": "C96", "title": "Statements chosen by the prover: hashing them is enough", "statement": "NoZK::verify, AlmZK::verify, QESA, Copy and the LMPA verifiers do not hash the statement (C59, C60). In the random-oracle model, let a prover with T hash queries output a statement s together with a proof, and let the caller start the verifier with a transcript enc(s), where enc is injective and all enc(s) contain equally many challenges (for LMPA: no enc(s) is the beginning of another). Then the bounds of C92-C95 hold unchanged: for NoZK (s determines P and t), AlmZK (C_w and t), QESA (the equations; if the challenge x is not zero) and binary LMPA and SimpleZK (matrix and target) the extractor succeeds for the chosen statement, with reruns of the prover that all choose the same statement; and if there is no relation between the generators, the probability of being accepted with a false statement is at most 3 (T + q + 1)(1/l + 2^-512) for NoZK, 3 (T + q + 2)(1/l + 2^-512) for AlmZK, (T + q + 5)(n + 4)(1/l + 2^-512) for QESA, (T + q + 6) max(n + 4, N)(1/l + 2^-512) for Copy with at most N commitments (equations, messages and commitments chosen), and without any assumption 2 (T + q)(1/l + 2^-512) for LMPA and 2 (T + q + 1)(1/l + 2^-512) for SimpleZK. Conversely with a transcript that does not depend on the statement, one query suffices for a false statement with an accepted proof, unless alpha is zero.", "quantifier": "all provers (arbitrary adaptive query strategies and choices of statement), encodings, generators and, up to the stated fraction, hash functions", "why_tests_cant": "a test has a fixed statement; the claim is about all provers that choose the statement depending on the hash function", "anchors": ["src/ipa/no_zk.rs: verify", "src/ipa/alm_zk.rs: verify", "src/ipa/qesa_inner.rs: verify", "src/qesa_zk.rs: verify", "src/copy/copy.rs: verify", "src/lmpa/no_zk.rs: verify", "src/lmpa/simple_zk.rs: verify"]}
{"id": "C97", "title": "Black-box extractors: expected number of runs and probability of success", "statement": "In the random-oracle model, for arbitrary provers with T hash queries. There is a program that sees of the prover only its proof for hash functions of its choice, and that after a first accepted run changes the answers behind the challenges, the last challenge first, with at most r attempts for each further run. On average over hash function and program, it runs the prover at most 1 + (T + k)(N - 1) times, where k is the number of challenges and N the size of the tree, however small the probability is that the prover is accepted. With at least the probability that the prover is accepted minus (T + k) times the sum over the challenges of (K - 1)/(r + 1) + K (K - 1)/2 (1/l + 2^-512), it returns at most N accepted runs that contain a tree of conversations with K different values of each challenge. From the scalars of the tree the extractors of C21, C61, C43 and C52 compute a witness, or for the protocols over G and H else a non-trivial relation between the generators. For NoZK with n = 2^q: K = 4, k = q + 1, N = 4^(q + 1). AlmZK: K = 4, k = q + 2. QESA and Copy (if x is not zero): K = max(n - 1, 4) for s and 4 for the q + 3 challenges after it, k = q + 5 and q + 6. Binary LMPA and SimpleZK: K = 3, k = q and q + 1, always a witness.", "quantifier": "all provers (arbitrary adaptive query strategies and arbitrary probability of being accepted), statements, generators, transcripts and numbers of attempts", "why_tests_cant": "the program is not part of the library; its cost and success are averages over all hash functions and all provers", "anchors": ["src/ipa/no_zk.rs: verify", "src/ipa/alm_zk.rs: verify", "src/ipa/qesa_inner.rs: verify", "src/qesa_zk.rs: verify", "src/copy/copy.rs: verify", "src/lmpa/no_zk.rs: verify", "src/lmpa/simple_zk.rs: verify"]}
{"id": "C98", "title": "Computational soundness: false openings lead to an explicit relation between the generators", "statement": "In the random-oracle model and in any group (also a cyclic one, where relations between generators exist but should be hard to find), for arbitrary provers with T hash queries. NoZK and AlmZK: if the caller knows an opening of the statement with another inner product than claimed, the extractor of C97 returns, with the probability that a prover is accepted minus the loss of C97, runs from which a non-trivial relation between G_Vec, H_Vec and Q is computed. QESA with n = 2^q: let a prover show, together with its proof, openings of c_prime_w on G and H and of c_prime_prime_w on H. If it is accepted with probability p with an opening to a vector that has first component one and violates one of the first n equations (more generally, does not satisfy the conditions of C89), a program that sees only what the prover returns finds with probability at least p minus the loss accepted runs that give a non-trivial relation: two different openings of the same c_prime_w, or the result of the extractor of C61, which is a relation or an opening that differs from the one shown. The program runs the prover on average at most 1 + (T + q + 5)(N - 1) times with N = (n + 5) max(n - 1, 4) 4^(q + 3). The same for Copy with commitments Cs to messages, if the opening of C_w has first component one and violates one of the user's equations or does not hold the messages in their slots; N has another factor |Cs| + 4. The loss is (T + k) times the sum over the k challenges of (K - 1)/(r + 1) + K (K - 1)/2 (1/l + 2^-512), with r attempts and K values per challenge.", "quantifier": "all provers (arbitrary adaptive query strategies and probability of being accepted), groups, generators, equations, messages, transcripts and numbers of attempts", "why_tests_cant": "tests cannot show that cheating amounts to solving a hard problem; the claim is a reduction with a bound on its cost, for all provers", "anchors": ["src/ipa/no_zk.rs: verify", "src/ipa/alm_zk.rs: verify", "src/ipa/qesa_inner.rs: verify", "src/qesa_zk.rs: verify", "src/copy/copy.rs: verify"]}
{"id": "C99", "title": "The soundness errors of LMPA, SimpleZK, IPA and AlmZK are attained", "statement": "Draw the challenges uniformly from N scalars that contain two different values with sum != 0 (for IPA and AlmZK: N non-zero scalars with three different values whose pairwise sums are not zero) and take n = 2^q. For every row and every target, true or false, there is an interactive prover that lmpa NoZK::verify accepts for at least N^q - (N-2)^q of the N^q challenge sequences, and one that SimpleZK::verify accepts for at least N^(q+1) - (N-1)(N-2)^q of the N^(q+1); if the target is no combination of the row these are the exact maxima over all provers. For ipa::no_zk and q >= 1 there are false claims (P = <a,G> + <b,H> + s Q with s != t) and a prover that verify accepts for at least N^(q+1) - (N-1)(N-3)(N-2)^(q-1) of the N^(q+1) sequences; if the generators have no relations this is the exact maximum over all provers, and for no false statement (C, t) whatsoever is any prover accepted more often; so the soundness error of IPA is at most (2q+2)/N, which improves on C64, and three values of the first folding challenge, but only two of the later ones, can be answered wrongly. For AlmZK with C_w = <a,G> + <b,H>, a != 0 and any t there is a prover that verify accepts for at least N^(q+2) - N(N-2)(N-3)(N-2)^(q-1) of the N^(q+2) sequences; without relations and with t != <a,b> this is the exact maximum, no prover of any false statement (C_w, t) is accepted more often, and the soundness error is at most (2q+3)/N.", "quantifier": "all rows, targets, generators, vectors, sets of challenges and provers", "why_tests_cant": "an optimum over all strategies; a test can only try some of them", "anchors": ["src/lmpa/no_zk.rs: verify", "src/lmpa/simple_zk.rs: verify", "src/ipa/no_zk.rs: verify", "src/ipa/alm_zk.rs: verify"]}
{"id": "C100", "title": "Grinding: the soundness error grows with the number of hash queries", "statement": "In the random-oracle model, for every statement, true or false, there is a prover that tries T messages until the challenge after one of them is one of two values it hoped for. Its proof is accepted with probability at least 1 - (1 - 2b/2^512)^T, where b is the least number of 64-byte strings that reduce to the same scalar. It asks T hash queries for lmpa NoZK::verify with one row, T + 1 for SimpleZK::verify and for ipa NoZK::verify, T + 2 for AlmZK::verify and T + 5 for QESA with any system of equations (n = 2^q generators, q >= 1, q < 64 for the last three; T pairs of scalars with different non-zero sums must exist). Over the Ristretto group this is at least T/(T + 2^252). So the factor T of the upper bounds of C67-C71 is needed, and the bound of C71 for LMPA is right up to a constant factor.", "quantifier": "all statements, generators, transcripts, numbers of queries and sizes", "why_tests_cant": "the claim is about probabilities of the order of 2^-252 and arbitrary statements", "anchors": ["src/lmpa/no_zk.rs: verify", "src/lmpa/simple_zk.rs: verify", "src/ipa/no_zk.rs: verify", "src/ipa/alm_zk.rs: verify", "src/ipa/qesa_inner.rs: verify"]}
{"id": "C101", "title": "Sizes of proofs, number of challenges and amount of randomness", "statement": "Whenever a prover returns, without any other condition, n = |G_Vec| = 2^k for some k and both L_vec and R_vec have k entries, so that NoZK proofs consist of 2k points and two scalars, AlmZK proofs of 2k + 1 points, QESA proofs of 2k + 3 and Copy proofs of 2k + 4 points. The transcript contains k + 1, k + 2, k + 5 and k + 6 more challenges than before. AlmZK create draws exactly 4k + 4 random scalars (if a has length n), qesa_zk::create and copy::create 4k + 6: what they return depends on the random numbers only through these, and the random source is left just behind them. sample_m_n_plus for n = 2^k >= 8 uses each of the 2k + 2 scalars that it draws (two different draws give two different vectors); for n = 2 and n = 4 two of the drawn scalars are overwritten. SimpleZK create draws exactly |G_Vec| and create_general exactly n random scalars, for matrices and witnesses of any shape, and a has one entry per row.", "quantifier": "all inputs, random tapes, hash functions and transcripts for which create returns", "why_tests_cant": "a test sees one size and one run; that no other random numbers matter is a statement about all pairs of runs", "anchors": ["src/ipa/no_zk.rs: create", "src/ipa/alm_zk.rs: create", "src/ipa/gramschmidt.rs: sample_m_n_plus", "src/qesa_zk.rs: create", "src/ipa/qesa_inner.rs: create", "src/copy/copy.rs: create"]}
{"id": "C102", "title": "Domain separation between the arguments", "statement": "Take any two calls of a verifier or a prover of different arguments (ipa::no_zk, alm_zk, qesa_zk, copy, lmpa NoZK, the k-ary lmpa_noZK, SimpleZK/SimpleZK_general), with arbitrary inputs and proofs, that start from the same transcript and return. The histories at which they evaluate the hash function are disjoint, so that no challenge of one argument is ever a challenge of the other. Arguments that follow each other on one transcript never share such a history either, whatever their kinds and number. Finding: SimpleZK::verify and verify_general are not separated: with the same first message `a` they use the same challenge beta.", "quantifier": "all pairs of arguments, all inputs, proofs, transcripts, hash functions and random tapes", "why_tests_cant": "a test compares the challenges of a few runs; the claim is about all pairs of runs and malformed inputs as well", "anchors": ["src/ipa/no_zk.rs: create, verify", "src/ipa/alm_zk.rs: create, verify", "src/qesa_zk.rs: create, verify", "src/copy/copy.rs: create, verify", "src/lmpa/no_zk.rs: create, verify, create_lmpa_noZK, verify_lmpa_noZK", "src/lmpa/simple_zk.rs: create, verify, create_general, verify_general"]}
{"id": "C103", "title": "Proofs made from wrong data are rejected", "statement": "What the verifiers say about the output of the provers when the data do not fit. lmpa NoZK: the proof that create makes from w for the matrix A with first row a_0 is accepted for a target t exactly if (x_1...x_q)(t_0 - <w, a_0>) = 0 for the challenges x_j of the rounds, and verify ends in the transcript of create; so a wrong t_0 is rejected unless a challenge is zero. SimpleZK: the same with the factor beta x_1...x_q. AlmZK: if alm_zk::create is called with a commitment to (a, b) and any t, then verify accepts for that t exactly if beta^2 (t - <a, b>) Q is the identity, unless alpha or a challenge of the rounds is zero or the masks are drawn from isotropic vectors. QESA: if the verifier of a proof made by create ends in the transcript of the prover, then w_0 = 1 and the batched equation holds (for x other than 0, 1, -1, beta != 0, and G_0, Q not the identity). If w_0 = 1 and the batched equation is violated, all histories out of which the verifier squeezes alpha and the challenges of the rounds are ones that the prover has not used, and over the answers of the hash function to these k + 1 histories the proof is accepted with probability at most 3 (k + 1) B / 2^512, if the generators satisfy no linear relation; B is the greatest number of 64-byte strings that reduce to the same scalar.", "quantifier": "all witnesses, targets, matrices, generators, transcripts, random tapes and hash functions", "why_tests_cant": "a test tries single wrong values; the claim covers every wrong value and gives the exact condition", "anchors": ["src/lmpa/no_zk.rs: create, verify", "src/lmpa/simple_zk.rs: create, verify", "src/ipa/alm_zk.rs: create, verify", "src/ipa/qesa_inner.rs: create, verify"]}
{"id": "C104", "title": "Proofs cannot be moved to another transcript", "statement": "In the random-oracle model, a proof that does not depend on the answers to the histories that the verifier asks for, in particular an honest proof that is replayed in another session, is accepted with small probability, whether the statement is true or not. With n = 2^q generators and u = 1/l + 2^-512 this is at most 2(q+1)u for ipa::no_zk, 2(q+2)u for AlmZK, 2(q+3)u for QESA and Copy, 2q u for lmpa NoZK (first row and first entry of the target) and 2(q+1)u for SimpleZK. The exceptions are exactly named: for NoZK (q >= 1) claims of the form P = a G_last + b H_first with a b Q = t Q = 0 (another G_i in place of the last if the proof has fewer R points than rounds; for q = 0 or no R points P = a G_0 + b H_0 + t Q with a b Q = t Q), for AlmZK C_w = 0 with t = 0, for QESA and Copy generators with H[n-2] = G[n-1] and H[n-1] = -G[n-2], for LMPA t_0 = w times the last entry of the row, for SimpleZK t_0 = 0 (examples show that such proofs are accepted on all transcripts). Replay: take what alm_zk::create, qesa_zk::create, copy::create or SimpleZK create return for a transcript tr, with any inputs, and check it on a transcript tr2. If none of the histories that verify hashes is one that the prover hashed, it is accepted only with this probability over the answers to a set of histories that the prover did not ask for. This covers every tr2 that is not a beginning of the prover's final transcript, that final transcript itself, and two proofs of one transcript that are checked in the wrong order.", "quantifier": "all proofs, statements, generators, matrices, pairs of transcripts, inputs of the provers and, up to the stated fraction, hash functions", "why_tests_cant": "a test replays a few proofs; the claim is about all of them and about probabilities of the order of 2^-250", "anchors": ["src/ipa/no_zk.rs: verify", "src/ipa/alm_zk.rs: create, verify", "src/qesa_zk.rs: create, verify", "src/ipa/qesa_inner.rs: verify", "src/copy/copy.rs: create, verify", "src/lmpa/no_zk.rs: verify", "src/lmpa/simple_zk.rs: create, verify"]}
{"id": "C105", "title": "Which values of the hash function matter", "statement": "Let a prover or verifier of ipa::no_zk, alm_zk, qesa_inner, qesa_zk (create), copy, lmpa NoZK, the k-ary lmpa_noZK, SimpleZK or SimpleZK_general return and leave the transcript in state tr'. Then tr' extends the transcript tr with which it was called, and with any other hash function that has the same values at those beginnings of tr' that extend tr and end with a challenge it returns the same proof or verdict, the same transcript and the same state of the random source. No other value of the hash function is ever used, for malformed inputs as well.", "quantifier": "all inputs, proofs, transcripts, random tapes and pairs of hash functions", "why_tests_cant": "a statement about all pairs of hash functions; a test runs with one", "anchors": ["src/transcript.rs", "src/ipa/no_zk.rs: create, verify", "src/ipa/alm_zk.rs: create, verify", "src/ipa/qesa_inner.rs: create, verify", "src/qesa_zk.rs: create", "src/copy/copy.rs: create, verify", "src/lmpa/no_zk.rs: create, verify, create_lmpa_noZK, verify_lmpa_noZK", "src/lmpa/simple_zk.rs: create, verify, create_general, verify_general"]}
{"id": "C106", "title": "Sessions of honest proofs on one transcript", "statement": "A prover makes any number of proofs of any kinds (ipa::no_zk, alm_zk, qesa_zk, copy, lmpa NoZK, k-ary lmpa_noZK, SimpleZK, SimpleZK_general, in any order and mixture) one after the other on one transcript, and a verifier checks them in the same order on its own transcript that starts in the same state. If the statements are true (and for alm_zk the witness is generic), then over the random-oracle answers and the random numbers of the provers the probability that some create panics, some verify does not return true, or the two transcripts differ after some proof is at most the sum of the completeness errors of the single proofs: with u = 1/l + 2^-512 these are u for ipa::no_zk, 7/l + u for alm_zk, 7/l + 14u for QESA and Copy, d u for the k-ary arguments with d rounds, and 0 for lmpa NoZK and SimpleZK. Sessions that consist of lmpa NoZK and SimpleZK proofs never fail, for any hash function and any random numbers.", "quantifier": "all lists of true statements with sizes that the library accepts, all starting transcripts", "why_tests_cant": "the transcript on which a later proof is made depends on all earlier ones; a test can try a few short sessions", "anchors": ["src/transcript.rs", "src/ipa/no_zk.rs: create, verify", "src/ipa/alm_zk.rs: create, verify", "src/qesa_zk.rs: create, verify", "src/copy/copy.rs: create, verify", "src/lmpa/no_zk.rs: create, verify, create_lmpa_noZK, verify_lmpa_noZK", "src/lmpa/simple_zk.rs: create, verify, create_general, verify_general"]}
{"id": "C107", "title": "Sessions of SimpleZK proofs do not reveal which witnesses are used", "statement": "A prover makes m SimpleZK proofs one after the other on one transcript. Each statement A w = t may be chosen depending on all the proofs made before and has two witnesses. For every hash function the random numbers of all m proofs together can be permuted such that the session in which the first witness is used each time becomes the session in which the second one is used: all proofs, the final transcript and the error (if create panics) are equal. So each outcome of the session occurs for exactly as many choices of the random numbers with the first witnesses as with the second.", "quantifier": "all hash functions, transcripts, lengths of sessions, adaptive choices of statements with generators of a fixed number n, all pairs of witnesses", "why_tests_cant": "equality of two distributions over l^(n m) random choices cannot be tested", "anchors": ["src/lmpa/simple_zk.rs: create"]}
{"id": "C108", "title": "Sessions of SimpleZK proofs are perfectly zero knowledge", "statement": "A prover makes m SimpleZK proofs one after the other on one transcript; each true statement A w = t may be chosen depending on all the proofs made before. There is a simulator that gets only the statements (A, G_Vec, t), never a witness, and that chooses the answer of the random oracle to one history per proof. Every event about the complete hash function and the outcome of the session (all proofs, the final transcript, or the panic) has exactly the same probability for the prover and for the simulator.", "quantifier": "all lengths of sessions, adaptive choices of statements and witnesses with a fixed number n of generators, malformed matrices included, starting transcripts and events", "why_tests_cant": "equality of two distributions over hash functions and random numbers; a test can sample only", "anchors": ["src/lmpa/simple_zk.rs: create"]}
{"id": "C109", "title": "Soundness of sessions of chosen statements on one transcript", "statement": "A verifier checks m proofs one after the other on one transcript; their kinds (ipa::no_zk, alm_zk, qesa_zk, copy, lmpa NoZK, SimpleZK, in any order and mixture) and sizes are fixed in advance, and the caller hashes each statement before its proof with an encoding that contains no challenges and is not a prefix of another one. A prover that asks the random oracle at most T questions chooses all statements and all proofs. The probability that the verifier accepts some proof that it should not accept is at most the sum over the proofs of (T + N_i) f_i (1/l + 2^-512), where N_i is the number of challenges of the session up to the end of proof i and f_i is 3 for ipa::no_zk and alm_zk, n + 4 for qesa_zk with n generators, max(n + 4, N) for copy with n generators and at most N commitments, and 2 for the linear-map arguments. Not to be accepted are: false inner-product claims, equations that the committed vector violates, committed messages that are not at their places in the vector (copy, with the restrictions of C96 on the equations and index sets), and linear-map claims whose first entry is not a value of the first row. There must be no relation between the generators (inner-product kinds). Rejected proofs do not end the session; a panic does, and so does a proof of the inner-product kinds with fewer points R than L.", "quantifier": "all provers in the random-oracle model, sessions, generators without relations, encodings of the statements, starting transcripts", "why_tests_cant": "a statement about all cheating strategies across several proofs, with probabilities of the order of 2^-200", "anchors": ["src/transcript.rs", "src/ipa/no_zk.rs: verify", "src/ipa/alm_zk.rs: verify", "src/qesa_zk.rs: verify", "src/ipa/qesa_inner.rs: verify", "src/copy/copy.rs: verify", "src/lmpa/no_zk.rs: verify", "src/lmpa/simple_zk.rs: verify"]}
{"id": "C110", "title": "SimpleZK is zero knowledge for adversaries that ask for many proofs and query the hash function", "statement": "An adversary asks for m SimpleZK proofs. For each it chooses the transcript on which the proof is made, the matrix, the generators and the witness, depending on all earlier proofs and on the answers to hash queries: it makes at most T0 queries before the first proof and at most T1 after each. The transcripts need not continue one another and may repeat. There is a simulator that gets transcript, matrix, generators and t = A w but not w, answers each request at once, and chooses one answer of the random oracle per proof (from then on the adversary gets that answer). The probability of any event about the final hash function and everything that the adversary has seen differs between the prover and the simulator by at most the sum over i < m of (T0 + i (log2 n + 1 + T1)) / l. No matrix may be zero: some row must take a non-zero value. An adversary that asks for the zero matrix can tell the two apart.", "quantifier": "all adversaries with these numbers of queries, numbers of proofs, events, numbers n of generators; matrices may be malformed", "why_tests_cant": "a statement about all strategies and about differences of probabilities of the order of 2^-200", "anchors": ["src/lmpa/simple_zk.rs: create", "src/lmpa/no_zk.rs: create"]}
{"id": "C111", "title": "Knowledge soundness of sessions of chosen statements on one transcript, in any group", "statement": "A verifier checks m proofs one after the other on one transcript; their kinds (ipa::no_zk, alm_zk, qesa_zk, copy, lmpa NoZK, SimpleZK, in any order and mixture) and sizes are fixed in advance, and the caller hashes each statement before its proof with an encoding that contains no challenges and is not a prefix of another one (such encodings exist if scalars and points are countable). A prover that asks the random oracle at most T questions chooses all statements and all proofs. Nothing is assumed about relations between the generators, so this covers groups of prime order. The probability that the verifier accepts some proof that is not explained is at most the sum over the proofs of (T + N_i) f_i (1/l + 2^-512), where N_i is the number of challenges up to the end of proof i and f_i = 3 for ipa::no_zk and alm_zk, max(m+1, 3) for qesa_zk and copy with witnesses of m+1 entries, 2 for lmpa NoZK and SimpleZK. Explained means: there is a tree of further runs of the same prover, with hash functions that differ from the given one at no more histories than the proof has challenges, with the same statement for this proof and an accepted proof on the same transcript; and the extractor of C21, C25, C61, C43 or C52, a fixed function of the challenges and final scalars of those runs, gives a witness of the statement or, not for the linear maps, a nonzero relation between the generators. For qesa_zk and copy this is claimed if the first challenge x is not zero, and the witness is an opening of the sum of the commitments to a solution of the batched equation; for the linear maps it concerns the first row of the matrix.", "quantifier": "all provers in the random-oracle model, sessions, generators of fitting number in any module, encodings of the statements, starting transcripts", "why_tests_cant": "a statement about all cheating strategies across several proofs, with probabilities of the order of 2^-200", "anchors": ["src/transcript.rs", "src/ipa/no_zk.rs: verify", "src/ipa/alm_zk.rs: verify", "src/qesa_zk.rs: verify", "src/ipa/qesa_inner.rs: verify", "src/copy/copy.rs: verify", "src/lmpa/no_zk.rs: verify", "src/lmpa/simple_zk.rs: verify"]}
{"id": "C112", "title": "Extraction of a witness from each proof of a session, with a bounded expected number of runs", "statement": "The setting is that of C111: m proofs of fixed kinds and sizes one after the other on one transcript, the statements chosen by the prover and hashed before their proofs, nothing assumed about relations between the generators. For each proof i of the session and each r there is one program that works for all provers. The program has the prover as a black box that it runs with hash functions of its choice, and draws random answers. Let T bound the questions of the prover and q be T plus the number of challenges of the proofs up to and including proof i. On average over the hash function and the answers drawn: the program runs the prover at most 1 + q (N - 1) times, where N = 4^(k+1) for ipa::no_zk with 2^k generators, 4^(k+2) for alm_zk, max(m+2, 4) 4^(e+3) for qesa_zk and copy with witnesses of m+1 entries and 2^e generators, 3^k and 3^(k+1) for the linear maps with 2^k columns. The probability that the verifier gets to proof i (returns for all proofs before it, of regular shape) and accepts it, with x not zero for qesa_zk and copy, exceeds the probability that the program returns at most N runs that explain proof i (in the sense of C111, all runs of the tree among those returned) by at most q times d ((K-1)/(r+1) + K(K-1)/2 (1/l + 2^-512)) with d challenges at which K answers are wanted (K = 4 resp. 3; for qesa_zk and copy K = max(m+2, 4) at the challenge s and K = 4 at the e+3 that follow). So whenever the prover convinces the verifier of proof i, the witness can be found with a number of runs that is linear in the number of questions.", "quantifier": "all provers in the random-oracle model, sessions, positions in the session, numbers of attempts, generators of fitting number in any module, encodings of the statements, starting transcripts", "why_tests_cant": "a statement about the existence of a program for all cheating strategies and about its average running time", "anchors": ["src/transcript.rs", "src/ipa/no_zk.rs: verify", "src/ipa/alm_zk.rs: verify", "src/qesa_zk.rs: verify", "src/ipa/qesa_inner.rs: verify", "src/copy/copy.rs: verify", "src/lmpa/no_zk.rs: verify", "src/lmpa/simple_zk.rs: verify"]}
{"id": "C113", "title": "Security levels of sessions over the Ristretto group", "statement": "For the scalars modulo l = 2^252 + 27742317777372353535851937790883648493 and every group over them: consider sessions of at most 2^20 proofs of fixed kinds with at most 2^16 generators (columns) each, in which the caller hashes every statement before its proof, and provers that ask the random oracle at most 2^100 questions and choose all statements and proofs. (1) If there are no relations between the generators, the verifier accepts some proof that it should not accept (in the sense of C109) with probability at most 2^-115. (2) In any case it accepts some proof that is not explained by a tree of further runs (in the sense of C111) with probability at most 2^-115. (3) For each proof of the session there is a program, the same for all provers, that runs a prover with T questions at most 2^54 (T + 2^25) times on average and returns at most 2^54 runs, and the probability that the proof is reached and accepted (with x not zero for qesa_zk and copy) exceeds the probability that these runs explain it by at most 2^-120.", "quantifier": "all provers in the random-oracle model, sessions of the given sizes, groups of exponent l, generators, encodings of statements and points, starting transcripts", "why_tests_cant": "probabilities of 2^-115 cannot be measured", "anchors": ["Cargo.toml: curve25519-dalek", "src/transcript.rs", "src/ipa/no_zk.rs: verify", "src/ipa/alm_zk.rs: verify", "src/qesa_zk.rs: verify", "src/copy/copy.rs: verify", "src/lmpa/no_zk.rs: verify", "src/lmpa/simple_zk.rs: verify"]}
{"id": "C114", "title": "Computational soundness of sessions: shown openings of false statements lead to relations between the generators", "statement": "The setting is that of C112. (1) Let the prover output something else along with the session, and let any condition on the hash function, the transcript of proof i and the complete output be given. There is a program, the same for all provers, within the bounds of C112 on the average number of runs: the probability that proof i is reached and accepted (with x not zero for qesa_zk and copy) and the condition holds exceeds the probability that the program returns at most N runs, the given run among them, that explain proof i while the condition holds in the given run, by at most the loss in C112. (2) In particular let the prover show an opening along with the session. The probability that proof i is accepted although the opening shows that it should not be, exceeds by at most the same amount the probability that the program returns at most N runs, the given run among them, from which a fixed function of their challenges and final scalars and of the shown opening computes a nonzero relation between the generators. An opening shows this if it is one of the commitment of the statement (ipa::no_zk, alm_zk) with an inner product other than t or, for qesa_zk and copy, one of C' + C'' whose vector w violates the equation that x (not zero) selects; here w is taken with the first entry 1 + x^2 (w_0 - 1), which is w_0 if w_0 is one (see C62). So whoever convinces the verifier in a session while knowing that the statement is false can be used to find a relation between the generators, and the bound on the number of runs depends on the sizes and the number of questions only. (3) Over the Ristretto scalars, for sessions of at most 2^20 proofs with at most 2^16 generators each and provers with T <= 2^100 questions, the program runs the prover at most 2^54 (T + 2^25) times on average, returns at most 2^54 runs, and the loss is at most 2^-120.", "quantifier": "all provers in the random-oracle model, sessions, positions in the session, conditions, shown openings, numbers of attempts, generators of fitting number in any module, encodings of the statements, starting transcripts", "why_tests_cant": "a reduction is a statement about all cheating strategies and about the running time of a program that uses them", "anchors": ["src/transcript.rs", "src/ipa/no_zk.rs: verify", "src/ipa/alm_zk.rs: verify", "src/qesa_zk.rs: verify", "src/ipa/qesa_inner.rs: verify", "src/copy/copy.rs: verify"]}
{"id": "C115", "title": "Honest sessions over the Ristretto group in numbers", "statement": "For the scalars modulo l = 2^252 + 27742317777372353535851937790883648493 and every group over them: (1) A session of at most 2^20 proofs of true statements of any kinds on one transcript (C106: sizes that the library accepts, generic witnesses for alm_zk, fewer than 64 rounds for the linear-map arguments) fails with probability at most 2^-226: with all other probability no create panics, every verify returns true and the two transcripts agree after each proof. (2) An adversary as in C110 that asks for at most 2^20 SimpleZK proofs with at most 2^16 generators, makes at most 2^100 hash queries before the first proof and at most 2^80 after each, and asks for no zero matrix distinguishes the prover from the simulator with probability at most 2^-130.", "quantifier": "all sessions of true statements of the given sizes, all adversaries with these numbers of queries, groups of exponent l, encodings of points, starting transcripts, events", "why_tests_cant": "probabilities of 2^-226 and 2^-130 cannot be measured", "anchors": ["Cargo.toml: curve25519-dalek", "src/transcript.rs", "src/ipa/no_zk.rs: create, verify", "src/ipa/alm_zk.rs: create, verify", "src/qesa_zk.rs: create, verify", "src/copy/copy.rs: create, verify", "src/lmpa/no_zk.rs: create, verify, create_lmpa_noZK, verify_lmpa_noZK", "src/lmpa/simple_zk.rs: create, verify, create_general, verify_general"]}
{"id": "C116", "title": "One program extracts from all proofs of a session", "statement": "The setting is that of C112; the prover may output something else along with the session. There is one program, the same for all provers, that returns a list of runs (or nothing) for every proof of the session. On average over the hash function and the answers that it draws, it runs the prover at most as often as the programs of C112 for all the proofs together: the sum over i of 1 + q_i (N_i - 1). The probability that there is some proof i that the verifier reaches and accepts (with x not zero for qesa_zk and copy) but for which the program does not return at most N_i runs, the given one among them, that explain this proof is at most the sum over i of q_i times the loss of C112. So but with this probability the witnesses, or relations between the generators, are found for all accepted proofs at once. If the prover shows an opening for every proof, then with the same bounds: the probability that some proof is accepted although its opening shows that it should not be (as in C114), but the program does not return runs from which, with this opening, a relation between the generators is computed, is at most that sum. Over the Ristretto scalars, for sessions of at most 2^20 proofs with at most 2^16 generators each and provers with T <= 2^100 questions, these bounds are 2^74 (T + 2^25) runs and 2^-100.", "quantifier": "all provers in the random-oracle model, sessions, numbers of attempts, generators of fitting number in any module, encodings of the statements, starting transcripts", "why_tests_cant": "a statement about the existence of a program for all cheating strategies and about its average running time", "anchors": ["src/transcript.rs", "src/ipa/no_zk.rs: verify", "src/ipa/alm_zk.rs: verify", "src/qesa_zk.rs: verify", "src/ipa/qesa_inner.rs: verify", "src/copy/copy.rs: verify", "src/lmpa/no_zk.rs: verify", "src/lmpa/simple_zk.rs: verify"]}
