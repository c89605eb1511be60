# Formal model of 3for/qesa in Lean 4 — design

## What is modelled

Every function of `/repo/src`, tests included, one Lean definition per Rust function or loop
(`lean/Verif/Model/*.lean`, each with a file:line citation):

| Rust | Lean |
|---|---|
| `transcript.rs` | `Model/Transcript.lean` |
| `math_utils.rs` | `Model/MathUtils.lean` |
| `matrix.rs` | `Model/Matrix.lean` |
| `ipa/gramschmidt.rs` | `Model/GramSchmidt.lean` |
| `ipa/no_zk.rs` | `Model/IpaNoZk.lean` |
| `ipa/alm_zk.rs` | `Model/IpaAlmZk.lean` |
| `ipa/qesa_inner.rs`, `qesa_zk.rs` | `Model/QesaInner.lean` |
| `copy/mapping.rs`, `copy/copy.rs` | `Model/Copy.lean` |
| `lmpa/no_zk.rs`, `lmpa/simple_zk.rs` | `Model/Lmpa.lean` |
| the functions that subtract or shift, for any build profile | `Model/Release.lean` |
| `#[test]` functions | `Model/Tests.lean`; those on `f64` numbers: `Model/TestsFloat.lean` |

### Conventions

* **Scalars and points.** `Scalar` is an arbitrary field `F`, `RistrettoPoint` an arbitrary
  `F`-module `G` with decidable equality. Every theorem holds for all such `F`, `G`; the Ristretto
  group over `Z/l` is one instance. That `l` is a prime, so that `Z/l` is a field, is proved, and so is that
  every commutative group with `l x = 0` is a module over it (C87). That points of curve25519-dalek form such a
  group and that its scalar arithmetic is that of `Z/l` is trusted.
  `Scalar::invert(0) = 0` agrees with Lean's `0⁻¹ = 0`.
* **Vectors** are lists; `zip` truncates, exactly as in Rust.
* **Panics** are values `Except.error e`. Arithmetic is that of a build with overflow checks (debug
  profile): `n - 2` with `n < 2` is a panic. Release builds are the subject of C88; there, allocating a vector of
  `2^58` or more scalars is an error (`capacity overflow`, or out of memory). Sizes are unbounded naturals except where the code
  depends on the width: `as u16` is reduction mod 65536 and `1 << k` panics for `k ≥ 64`.
* **`&mut Transcript`** is threaded explicitly. A transcript is the list of all operations performed
  on it; the 64 bytes squeezed out are an arbitrary function `Hash` of that list (so the theorems
  hold for Merlin and for every other hash). `from_bytes_mod_order_wide` is the cast of the
  little-endian number into `F`.
* **Point compression** is a pair of functions with the two laws stated in `Codec`.
* **Randomness** is an infinite tape `Nat → F`; each `Scalar::random` takes the next entry. All
  theorems quantify over the tape.
* **`while` loops** take a number of iterations (`fuel`). In `ipa` and `gramschmidt` the callers pass
  an amount proved sufficient; in `lmpa`, where the Rust loops can run forever, `fuel` is an argument.
  A run with too little fuel returns `Err.outOfFuel`; the theorems say how much fuel is enough, that
  more fuel does not change the result, and for which inputs no amount is enough (C49).
* `vartime_multiscalar_mul` asserts equal lengths (curve25519-dalek does) and returns the sum.

### Not modelled

`println!` output, `Vec` capacity, timing/side channels, memory, the STROBE permutation inside
Merlin, the curve arithmetic, the byte layout of compressed points,
serialization (the crate has none). Of the `f64` numbers only finite ones without sign of zero are
modelled: a rational number with an arbitrary rounding after every operation (C82).

## Layout

* `Verif/Model` — the model. `Verif/Spec*.lean` — vocabulary of the statements, independent of the
  model's helpers: dot products, weights of the folded generators, logs, trees, extractors, provers,
  random oracles.
* `Verif/Proofs` — helper lemmas. `Verif/Props` — the property theorems (prefix `C##_`), lemmas used
  only there, and the concrete examples. `tools/` — generators for `properties.jsonl` and
  `MANIFEST.json`, and the axiom listing. `seeded/` — mutation testing.

## How the properties are stated

* **Helpers (C01–C10).** Against `Matrix`, `Finset.sum`, `List.ofFn`; exact panic conditions.
* **Completeness (C16, C24, C26, C38, C42, C47, C50, C54).** `create` followed by `verify` on the same
  initial transcript returns `.ok true`, for all inputs of the right shape, all tapes and all hash
  functions for which the challenges that are inverted are not zero.
* **Verdicts (C19, C43, C44, C52).** The result of `verify` on an arbitrary proof in closed form.
* **Transcripts (C11, C20, C23, C46, C56, C57).** The exact list of events.
* **Special soundness (C21, C25, C43, C52, C61).** As a reduction. The hypothesis is a tree of
  conversations each of which is *accepted by the modelled verifier* in some run (`IpaAccepted`,
  `AlmAccepted`, `QesaAccepted`, `LmpaAccepted`, `SimpleAccepted`: some hash function, some transcript
  history). The extractor is a function of the *scalars* of the tree only, so it cannot use discrete
  logarithms; its output is a witness or the coefficients of a non-trivial linear relation between the
  generators (`IsRelation`). In a group where relations are hard to find this is the usual statement.
* **Soundness error (C64–C66).** An interactive prover is an arbitrary strategy; the number of challenge
  sequences for which it is accepted is bounded, or else the extractor succeeds. `C63_trees_exist`,
  `C64_ipa_honest`, `C64_alm_honest`, `C66_lmpa_honest`, `C66_simple_honest` show that the hypotheses are met by honest provers
  in every instance. C99: the bounds are attained by provers that guess challenges (`IsGreatest` over all
  strategies for LMPA, SimpleZK, IPA and AlmZK; for the last two this needs generators without relations). C100: with `T` hash queries there is a prover of any
  statement that is accepted with probability about `2 T / ℓ`.
* **Sizes (C101).** Number of points and challenges, and the number of random scalars drawn; what is returned depends
  on the tape only through these (also SimpleZK and `create_general`). `challengesIn` counts the challenges of a log.
* **Domain separation (C102).** `questions tr tr'` is the set of histories at which the hash function is evaluated
  between two states of a transcript; `Runs` says that some prover or verifier of a given kind leads from one to the other.
* **Wrong data (C103).** Verdicts on the output of the provers for data that do not satisfy the statement. For QESA prover and
  verifier hash different points `P`; `ipaHistories` lists the histories that only the verifier uses.
* **Replay (C104).** A proof is fixed while the answers to the histories in `D` are drawn. `Settled log f`: `f` does not
  depend on answers to histories that properly extend `log`. `Movable` is the exception for NoZK. The replay theorems
  draw the answers to histories that are not questions of the prover; by C105 they do not change the proof.
  `not_questions` and `not_questions_before` give such histories: another transcript, the end of the prover's own one, and
  proofs of one transcript checked in the wrong order.
* **Locality (C105).** `Agree log log' ro ro'`: equal values at the beginnings of `log'` that extend `log` and end with a
  challenge. The release-arithmetic variants (`Model/Release.lean`) have no such theorem of their own.
* **Sessions (C106).** `Job.Works`: prover and verifier start from the same state, the proof is accepted, both end in the
  same state. Each proof has its own random numbers (the code takes a fresh `thread_rng` each time). `Job.Honest` collects
  the hypotheses of C16, C24, C26, C38, C42, C47, C50 and C54. `sum_chance_after` (Proofs/After.lean) is the independence of
  answers before and after a history; `finite_range` uses that the space of hash functions is compact.
* **Adaptive SimpleZK sessions (C107).** `simpleSession` (SpecLeftRight.lean): `next` maps the earlier proofs to the next
  statement, an arbitrary function, so it covers any adaptive choice. The number n of generators is the same for all of them.
* **Zero knowledge of sessions (C108).** `proverSession` and `chanceSessionSim` are in SpecSimSession.lean, the simulator
  `simSession` is in Props/SimSession.lean; it has no access to the witnesses because its `next` returns `PublicClaim`s. The
  statements depend on the earlier proofs but not on other values of the hash function: for those C79_adaptive (one proof) has
  an error term.
* **Soundness of sessions (C109).** SpecSlots.lean: a `Slot` is a kind of proof with its size, `Slot.verify` the verifier of
  the library for it, `Slot.Wrong` what must not be accepted, `Fooled` the event for a session, `slotsError` the bound. The
  prover is one algorithm with at most `T` oracle queries that outputs all statements and proofs; it does not get answers
  from the verifier in between (the verifier has no secrets, so it can compute them, at the price of queries). The caller
  hashes the statements: `enc` must be prefix free and free of challenges (the library does not hash them, C59, C60, C96).
  A statement of Copy consists of the equations, index sets, mapping and commitments only; what the commitments contain is
  determined because there are no relations (`commits_contents`). The k-ary linear-map argument and SimpleZK_general are
  not kinds of this theorem, since they are not sound (C48). The session ends (nothing is claimed about later proofs)
  at an inner-product proof with fewer points `R` than `L`, which the verifiers may process (C22).
* **Zero knowledge against adversaries with hash queries (C110).** SpecAdversary.lean: an `Adversary` is a start, a way to
  choose the next claim and a step after each proof, the first and last being algorithms with hash queries. `Adversary.real`
  answers with `createSimple`, `Adversary.sim` with the simulator of C79 (it reads `log`, `A`, `Gs` and `t` of the claim, not
  `w`). A panic of the prover is handed to the adversary as a result, and the game goes on. The prover is also written as
  an algorithm (`loopAlgo`, `simpleAlgo`); that it is the prover of the model is proved (`run_simpleAlgo`).
* **Knowledge soundness of sessions (C111).** SpecExplain.lean: `Slot.Again` is a further accepted run, `Slot.Explained` the
  tree of such runs with what the extractors compute from it (`Slot.ExplainedBy S`: the runs have hash functions in `S`),
  `Unexplained` the event for a session, `extractionError` the bound. The setting is that of C109, but nothing is assumed about relations between generators (`Slot.Fits` has the sizes
  only). The proof of a further run must be accepted on the transcript of the given run; nothing is said about the other
  proofs of the further run. The trees exist; how many runs it takes to find them is the subject of C112.
  `C111_encoding` shows that encodings as required exist (it counts in unary and is no recommendation).
* **Extraction from sessions (C112).** The program is that of C97 (`Rewinder.rewind`), with a test that includes that the
  verifier gets to the proof in question (`Reached`: it returns for the proofs before it, and these are regular), and with the
  questions of the verifier for the proof on the history where it starts. It exists before the prover is given. The runs it
  returns have the same history at the start of the proof. The test is a decidable function of the hash function and the
  output in the implementation; in the model it is a classical decision. As in C97 only runs of the prover are counted.
  C113 has C109, C111 and C112 in numbers (and `C114_session_level` has C114) for the field of the repository (`Slot.size` bounds the number of generators). The
  number of runs is a bound for the largest sizes that are allowed and far from practical there; the tree for QESA with `2^16`
  generators alone has almost `2^54` runs.
* **Computational soundness of sessions (C114).** SpecBreak.lean: `Slot.FalseOpening` is the opening that the prover shows,
  `Slot.BrokenBy` the relation computed from it and from the returned runs (`difference` and `GivesRelation` are those of
  C98). Provers that do not show an opening are the subject of C111 and C112: what is extracted is then a witness or
  a relation. The linear maps have no commitments (`FalseOpening` is `False` for them), and C109 needs no assumption there.
* **All proofs of a session (C116).** The programs of C112 one after the other (`inTurn`, a helper of the proof). The event is
  that an accepted proof is missed; it is about one run of the program, so the extractions succeed together.
* **Honest sessions in numbers (C115).** C106 and C110 for the field of the repository, as C113 for C109, C111 and C112.
* **Non-interactive soundness (C67–C71, C89, C91).** The hash is a random oracle: `chance` is the fraction of all
  functions on a finite set of histories that contains every history the prover or the verifier ever asks for
  (`C67_domain`, `C68_domain`, `C69_domain`, `C70_domain`, `C71_domain`, `C71_simple_domain`: such a set exists; `C67_chance_domain`: its choice does not
  matter). A prover is a decision tree of queries (`Algo`). It is *algebraic*: each point it hashes or outputs
  comes with coefficients with respect to the generators (`Note`, `Coeffs`, `Truthful`). The bounds are on the event "accepted by
  the modelled verifier, statement false, and none of an explicit list of coefficient vectors
  (`ipaCandidates`, …) is a non-trivial relation". Provers are deterministic; a randomized prover is a
  distribution over these and the bound holds for each. C71 also has versions for arbitrary provers. Statement and equations are fixed in advance:
  C59, C60 are attacks when they are not. C69 and C70 are about provers that commit correctly; C89 and C91 have
  no such condition and say exactly what QESA and Copy then prove (`drift`).
* **Arbitrary provers (C92–C95).** Here a prover is any decision tree of queries (`Algo Event α`), without
  coefficients. `Branches` says that it can be rewound: at each challenge at least `M` of the `2 ^ 512` answers lead to the
  same question and on to acceptance. `C92_forking` bounds how often a prover is accepted without branching; the extraction
  theorems are deterministic and turn branching into the trees of C21, C25, C43, C52 and C61, all of whose conversations are accepted runs
  of the same prover with `Reprogrammed` hash functions. How long a rewinding extractor searches for these answers is
  the subject of C97.
* **Chosen statements (C96).** In C67–C71 and C89–C95 the statement is fixed before the hash function is drawn. C96 is
  about provers that output a statement together with the proof, for callers who start the verifier with a transcript that
  determines the statement. The generators are fixed.
* **Extractors (C97).** `Rewinder` (`SpecExtract.lean`) is a program that draws random answers and runs a prover as a
  black box. `Rewinder.rewind` is the extractor. Its cost is the expected number of runs of the prover (an average over
  the hash functions on `D` and the draws); other computation is not counted. It returns a list of at most `N` runs. The
  theorems say that conversations from these runs form a tree; arranging them (they are sorted by their challenges) and
  the linear algebra of C21, C43, C52 and C61 are not counted as runs.
* **Reductions (C98).** The soundness theorems of C92–C96 that exclude relations between the generators are void in a
  cyclic group. C98 has no such hypothesis: the prover shows openings of its commitments (`Openings`, checked by the program),
  and a false one leads to a relation (`GivesRelation`) that is computed from the returned runs. That such
  relations are hard to find is the discrete-logarithm assumption; it is not formalized. Provers whose openings nobody
  knows are covered by the extraction theorems (C97).
* **Hiding (C33, C51, C73, C79).** SimpleZK is perfectly zero knowledge: `chanceBoth` of every event equals
  `chanceSim` of the same event for a simulator that changes the hash function at one history (the event sees the
  changed function). With a statement chosen after `T` hash queries the two differ by at most `T / |F|`. Zero knowledge of AlmZK, QESA and Copy is not proved. What is:
  their commitments are perfectly hiding. C72 is a case in which the masks of AlmZK fail.
* **Completeness error (C74, C75, C78).** `chanceBoth` is the fraction of pairs (hash function on a finite set of
  histories, first `N` scalars of the tape). The bounds are on the event that an honest run of prover and
  verifier does not end with `true`, panics included.
* **Numbers (C87).** The bounds above for the order of the Ristretto group.
* **Build profiles (C88).** All other properties are about builds with overflow checks (`cargo test`, debug builds).
  `Model/Release.lean` has the functions that subtract or shift once more, for an arbitrary profile; `C88_debug_*` say
  that with overflow checks these are the functions of the other files, and C88 compares the release profile with them.
* **Tests (C76–C78, C80–C82).** A `#[test]` function is a program that returns `.ok ()` or panics, as a function of the
  outcomes of its random choices; the theorems say for which outcomes, or how often, it passes.
* **Findings** are theorems about the code as it is: an explicit attack or input and the proof that it
  works for all sizes, hash functions, etc.

## Findings

| id | what the code does |
|---|---|
| C09 | `block_matrix_batch` with `n` challenges silently drops equations after the first `n` |
| C15, C17, C31, C58 | inputs on which the code panics instead of returning an error |
| C23 | surplus R points of an IPA proof are ignored (malleable proofs) |
| C29, C40 | QESA and Copy proofs of every statement can be forged from public data |
| C41 | commitment index 0 is accepted; indices inside the witness make Copy fail |
| C44 | the LMPA verifier compares row 0 only |
| C45, C59, C60 | challenges do not bind the statement (LMPA, SimpleZK, IPA, AlmZK) |
| C48 | the k-ary LMPA verifier accepts proofs independently of the statement |
| C49 | the LMPA loops do not terminate on some inputs |
| C53 | `create_general` does not blind the witness |
| C62 | the first component of the QESA witness is not pinned, because the same challenge is used twice |
| C72 | AlmZK with two generators per side does not mask `b` |
| C74 | AlmZK with parallel vectors panics with every tape |
| C76 | `test_random_compute_mapping` fails for 6.4 % of its random choices |
| C77 | `test_lmpa_batch` does not check the claim `A w = t` it is about |
| C82 | `test_lmpa_almSnd_float_1` and `_2` never use the target they compute |
| C83 | `alm_zk::create` accepts `a` longer than `b` and returns proofs that are rejected |
| C84 | the binary LMPA functions do not check the shapes of `A` and `w`; `n` need not be a power of two |
| C85 | the k-ary verifier returns verdicts for sizes on which the prover panics; empty rows are skipped |
| C86 | QESA does not check that matrices are rectangular, and the verifier not the number of rows; an honest proof for a matrix with a short row is rejected |
| C88 | in release builds `1 << L_vec.len()` wraps, so proofs with 64 points too many are accepted; `compute_mapping` wraps for `n % 65536 < 2` |
| C90 | proofs are malleable: `inner.c_prime_w` of a Copy proof, surplus LMPA messages and most of a k-ary proof are never read |
| C91 | as in C62, Copy accepts unsatisfiable user equations from a commitment whose first component is not one; equality of messages still holds |

## Trusted base

* The Lean 4.33.0 kernel.
* Axioms: only `propext`, `Classical.choice`, `Quot.sound`. Of the theorems listed in `MANIFEST.json`,
  these use none: `C03_vandemonde_matrix_panics`, `C08_block_push`, `C10_challenge_scalar`; these use
  `propext` and `Quot.sound`: `C01_inner_product_symm`, `C04_matrix_scalar_mul`,
  `C04_matrix_scalar_mul_general`, `C04_matrixpoint_scalar_mul`, `C04_row_row_add`,
  `C04_row_row_add_general`, `C04_row_row_sub`, `C04_rowpoint_rowpoint_add`,
  `C04_vector_scalar_mul_general`, `C04_vectorpoint_scalar_mul`, `C08_batch_panics`, `C09_batch_drops`,
  `C10_little_endian`, `C15_sparse_sampling_panics`, `C44_lmpa_verify_size`, `C46_simple_verify_log`,
  `C49_lmpa_fuel`, `C49_lmpa_verify_fuel`, `C55_pedersen_commit`, `C77_commitment_combination`, `C81_vitalik`,
  `C82_alm1_target`, `C82_alm2_target`, `C88_mapping`; all others use all three.
  `cd lean && lake env lean ../tools/axioms.lean.txt` prints the list.
* The reading of the Rust code recorded in the citations, and the conventions above.
* No `native_decide`, `bv_decide`, `sorry`, own axioms. Examples are checked with `decide +kernel` (the
  kernel evaluates them; no compiler is trusted) in the toy instance `F = G = ZMod 101`.

## Mutation testing

`seeded/mutants.py` lists realistic wrong programs (an edit of a model definition, the claim it breaks);
`seeded/run.py` applies each to a scratch copy, rebuilds and logs which theorems fail
(`seeded/LOG.jsonl`). Lemmas that fail are admitted in the scratch copy and the build goes on, so that the
dependence of every claim on the edited definition is seen. A mutant that left a claim standing led to
tightening of the theorem (field `tightened`). `seeded/auto.py COUNT SEED` draws
systematic edits (operators, constants, arguments, omitted statements) from all model definitions and logs
them in the same way; its survivors are looked at by hand and are either equivalent programs or lead to
tightening.
