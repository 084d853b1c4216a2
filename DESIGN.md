# Design: a Lean 4 model of webb-tools/zk-SaaS

## Layout

| Path | Content |
|---|---|
| `lean/Verif/Model/` | the model, function by function, each definition citing `/repo` file and lines |
| `lean/Verif/Spec/` | small independent specifications (polynomial evaluation, sharing relation, DFT, Groth16 equation) |
| `lean/Verif/Lemmas/` | helper lemmas |
| `lean/Verif/Properties/` | the property theorems and their non-vacuity examples, one file per group |

## Modelling decisions

* **Values.** `usize`/`u32` are `Nat` (overflow is the subject of C98 and C66; all indices in the code are bounded by vector
  lengths). `Vec<T>` is `List T`. `&mut` functions return the new value. Loops are `foldlM` over ranges.
* **Panics and errors.** `Res α = Except Fault α`; `Fault.panic` is a Rust panic (index out of bounds,
  `unwrap` on `None`, `assert!`), `Fault.net e` is an `MpcNetError`. Indexing is checked.
* **Build profile.** Every function containing a `debug_assert!` takes `dbg : Bool`; with `dbg = true`
  a failed assertion is a panic, with `dbg = false` it is skipped. Theorems quantify over `dbg`
  unless they say otherwise.
* **Randomness** is an explicit tape argument (`Nat → T`), so "for all randomness" is a universal quantifier and
  privacy statements are bijections on tapes.
* **Fields.** `FftField F` packages `TWO_ADICITY`, `TWO_ADIC_ROOT_OF_UNITY` (a primitive
  `2^TWO_ADICITY`-th root of unity) and `GENERATOR` (generates the multiplicative group). The concrete witness used in
  examples is `ZMod 17` (the field of the repo's own `gao.rs` test); the fields of BN254 and BLS12-377 are instances too (C80).
  Elements being secret shared range over an arbitrary `F`-module `T` (`DomainCoeff<F>`): the field itself or a curve group. The groups of BN254 (C91) and BLS12-377 (C93) are instances: the points of order dividing `r` in Mathlib's
  group of points of the curve and its twist.
* **arkworks** is outside the repository. Its functions are modelled by their documented contract
  (`Model/Ark.lean`): domain construction, `fft_in_place`/`ifft_in_place` with their `resize`
  (padding *and truncation*), `distribute_powers`, `batch_inversion`, polynomial division (`Polynomial.divByMonic`-style
  quotient and remainder over a field), `msm`, `CanonicalSerialize` (an abstract fixed-width codec).
* **Network.** Async functions are modelled as interaction trees (`Proc`) whose effects are exactly
  `send_to`, `recv_from`, the king's `FuturesOrdered` gather under `timeout`, and `try_join!`.
  A global configuration is one process per party plus one FIFO queue per (from, to, stream). The
  step relation lets any enabled party move, so a theorem over all step sequences is a theorem over
  all schedules. Timeouts are extra nondeterministic steps in a second relation.
* **HashMap iteration order** is an arbitrary permutation supplied by the environment.

## Trusted base

* Lean 4.33.0's kernel; axioms `propext`, `Classical.choice`, `Quot.sound` only (checked with `#print axioms` for every theorem
  named in `MANIFEST.json`; a few theorems about frames and packets need fewer).
* The reading of the Rust source into `Model/` (cited line by line).
* Contracts of code outside the repository:
  * arkworks: `Radix2EvaluationDomain` (domains, FFTs with `resize`), `batch_inversion`, polynomial division, `msm`,
    `CanonicalSerialize` (elements have a fixed width and decode to themselves; `Vec` is a `u64` length and the elements);
    `affine`/`projective` conversions are identities.
  * ark-groth16: key generation and the shape of `ProvingKey` (`Spec/Groth16.lean`); ark-circom:
    `witness_map_from_matrices` (`Model/Refs.lean`).
  * tokio / tokio-util: `LengthDelimitedCodec` with its 8 MiB limit, `FuturesOrdered` as an index heap, `try_join!` (first error wins).
  * TCP, TLS and smux deliver the bytes of a stream in order and without loss until the connection is cut. Opening a
    multiplexed connection is three messages. Nothing is claimed about a `Framed` after it has returned an error or `None`.
  * `ark_std::test_rng()` is a fixed tape (its `getrandom` feature is off in the repository).

Not modelled: the cryptography of TLS, real time (time-outs are nondeterministic steps; C89 counts message delays, every message one delay and local computation none), memory, sockets beyond the order of connections,
the `parallel` feature (rayon order), projective coordinates and the algorithms of curve arithmetic (square roots and subgroup checks when a point is read are taken by their contract), the pairing (any bilinear map), performance, command line handling,
the quality of random generators.

Simplifications worth knowing when reading the theorems:

* Every stream has an unbounded buffer and no lock. In the code it is one multiplexed connection behind one `TokioMutex` at each
  end. C77 shows that this makes no difference on a reliable network: one message is in transit at most and no lock is contended.
* A receive that is cancelled by the time-out between taking a message from the queue and storing it is not modelled
  (it would lose the message; the model keeps it in the queue, which gives C45).
* `.await.unwrap()` on an `Err` in the example `dsha256` is a panic of that party; both count as a failed party.
* `[idx]` lookups of the example's closure are part of `PSS.deal`.
* `Proc` sends are not limited in size and messages move whole; C53 adds the limit, C81 the bytes.
* What the peer of a replaced `ProdNet` connection observes is not modelled.
* After set-up (C82) the queues of a `ProdNet` hold payloads, not packets; a king whose table lacks an id waits for it instead of going on
  without it, and the results of a concurrent receive are listed by id. None of these can be seen when the table is complete.
* TLS (C83) is its contract: a handshake succeeds for the holder of the key of a certificate in the store and fails for everybody else. Errors of
  the sockets while the king waits are not modelled; nor are certificates that a root in the store has issued to others.
* The `unwrap`s of the `LocalTestNet` mesh are guards of steps; the theorem that no execution is stuck (C50) covers them.
  The genesis round is kept apart from the dial/accept phase.
* C100 draws exactly `N` values for each random sequence of the client, for any `N` at least as large as the domain and the assignment; what the
  client draws beyond what it uses does not matter. That `F::rand` and `G::rand` are uniform and independent is part of the statement's model.
* C58 and C60 compare transcripts of all parties except the king; the king's transcript is treated in C61 and C62. They need groups generated by
  `gen1`, `gen2`, random tapes instead of `test_rng`, `l` copies of `r` and `s`, and shares of `r` that are all non-zero or all zero.
  In C62 the king's own randomness is the same in both runs.
* In C67 the cheating party is not the king, messages carry the true sender and stream (TLS and smux), and the king's time-out fires
  only when it has heard all the honest parties (`Timely`). Failures of sends and receives are unrestricted.
* In C71 a silent party stops, but its connections stay open (sends to it succeed), and the king's time-out fires only when everybody that
  it has not heard is gone. A late party (C45, C67) and a closed connection (C49) are other failures. The king is never silent.
* In the example programs (C64, C65) the vectors are parameters, not the fixed ones of the source.
* `usize` is unbounded, except in C66 where `u32` sums wrap or panic as in Rust, and in C98, which repeats what computes with `usize` on 64-bit
  integers and shows that it makes no difference. The king of `d_pp` is repeated only up to the products; casts of party ids are not repeated.

## Findings: what is false of the code

| property | finding |
|---|---|
| C28, C61, C62 | masks of `deg_red` and `d_msm` have degree below 2l, so the king learns the upper coefficients of products; the exact leakage is C61/C62 |
| C74 | consequence of the low degree of these masks: the king and l-1 servers who know one factor of a reduced product learn the other, except with probability at most 1/\|F\| |
| C75 | the same in `circom_h` and `libsnark_h`: the king and l-1 servers who know the values of A learn the values of B, except with probability at most (m/l)/\|F\| |
| C76 | the king and l-1 servers (for l = 1 the king alone) compute Σ zₖ·Aₖ, Σ zₖ·Bₖ and the sum over the private key, the points that r and s are to blind: they can test any guess of the witness |
| C77 | with king time-outs the backlog of a stream is unbounded; without them one message per stream is in transit |
| C78 | a dishonest king adds any point to `A`, `B` and `C` of the proof; no server notices, in debug builds either |
| C79 | a dishonest king reads entries of the transformed `a` and `b` vectors from a coefficient no mask covers; with `l = 1` it reads all of `b` and the proof stays right |
| C83 | `new_king_tls` does not bind certificates to ids and gives up at the first failed handshake: one certificate is enough to be any party, none is needed to stop set-up |
| C85 | a circuit with fewer domain points than the packing factor is shared as empty vectors without a complaint; the client then panics while dealing, and servers given such shares would wait for ever in a release build |
| C87 | nothing ties a mask to one run; the king of two runs with the same masks computes the difference of the inputs, for `circom_h` and `libsnark_h` those of the A, B and C vectors |
| C88 | the client corrects no errors and checks at most one equation per component: after an honest session one server (release) or two servers (any build) choose by how much the opened proof is off, and can have the client open another accepted proof |
| C90 | message lengths and the number of rounds do not depend on secrets with one exception: when a server's share of `r` is zero, `B::compute` in G1 is skipped (prove.rs returns early), so a release build of the sha256 example shows by its traffic whether `r = 0` |
| C92 | add_ids: a king whose `--n-parties` is smaller than the number of certificates panics after having sent the sum to some clients; the others wait for ever |
| C96 | nothing compares the number of servers with the number of shares: one server too few and the session still succeeds, but the client of the example then returns a wrong proof (release) or panics (debug), though the shares it has determine the right one; one server too many and every king panics |
| C94 | mpc-net tests: `ChannelIO::poll_read` panics if what was written at once does not fit into the reader's buffer, so that the test transport carries short messages only |
| C33 | `pack_from_arkworks_proving_key` panics in debug builds when a query length is not a multiple of l |
| C36, C97 | `BInG1` returns early when its share of r is zero; the other parties wait for ever. With l copies of r this happens for between 1 and 4l in \|F\| of the choices of the dealer, and these are exactly the sessions that do not work |
| C98 | `PackedSharingParams::new(2^63)` wraps around in a release build and returns parameters for no parties; a debug build panics |
| C99 | debug builds of the servers accept shares of keys that a client of a debug build refuses to pack (C33) |
| C72 | the king is a single point of failure: if it stops before the last round, no client that still waits for an answer ever finishes |
| C37, C57 | the sha256 example packs `vec![r; pp.n]`: every server is given r and s |
| C40 | the threshold `pp.t = l` is too low: with fewer than 4l-1 answers a release build silently computes wrong values |
| C67 | without debug assertions, with two colluding clients, or when an honest party is late, cheating clients shift any slot of a result of `deg_red` unnoticed |
| C71 | in debug builds one silent server makes the king panic in `d_pp`, two in `deg_red`; release builds tolerate up to 2l on dealt shares |
| C68 | `d_pp` uses the constant 1 where it should use a random value and does not mask its first round: the king reads all inputs |
| C69 | `test_packing` gives `n-t+1` shares to `lagrange_unpack`, whose debug assertion asks for `2(t+l)-1`: for every `l >= 4` the test panics in a debug build. `test_eval_interpolate` fails exactly if the last random coefficient is zero. `test_multiplexing` cuts identities off from 257 parties on (noted, not proved) |
| C42 | trailing bytes are ignored; malformed messages of one party fail the full round but are dropped from a partial one |
| C45 | a late message of one round is taken for the next round's |
| C49 | the `ProdNet` king trusts announced ids; two peers may announce the same one |
| C51 | `LocalTestNet::is_init` is always false |
| C52 | the lossy variant of `simulate_network_round` drops the last result |
| C53 | the 8 MiB frame limit bounds the circuit size |
| C56, C102 | `QAP::pss` and the king of `d_fft` draw from `test_rng`: l servers tell witnesses with different row values apart almost surely |
| C76, C105 | `det_pack` pads the key with zeros: the king and l - 1 others compute the sums that r and s are to hide, for all but 4l in \|F\| of all draws, also with good randomness |
| C106 | nothing binds what servers send in `d_msm`: acceptance of the proof tells a cheating king, almost any one server of a release build or a pair of servers of a debug build whether a guess of the assignment has the right sum |
| C107 | (no fault) servers who add errors to what they send an honest king see nothing that depends on the assignment; the leak of C106 is in the opened proof only |
| C108 | (no fault) the degree check of debug builds notices errors independently of the inputs, masks and random choices; one wrong server is always noticed, two need not be |
| C109 | (no fault) cheating servers without the king tell two assignments apart with an advantage of at most 4l/\|F\| per session |
| C110 | (no fault) the same for servers who choose each message by the answers received so far; such strategies have exactly one outcome |
| C111 | (no fault) the same over any number of sessions; on BN254 the advantage is at most k l / 2^251 |
| C112 | (no fault) errors that the degree check of debug builds notices stop the whole session for everybody under every schedule; one wrong server can stop a session but never change what it ends with |
| C113 | (no fault) holding back some of the concurrent messages until others are answered, and choosing them by these answers, gains nothing either |
| C65 | `ConstraintDomain::new` accepts sizes in release builds on which the benchmark panics |
| C66 | `add_ids` panics in debug builds from 92683 parties on |

Smaller ones proved along the way: release `pack` of a short chunk puts random values into secret slots (C17); `d_pp` panics at
the king on a zero denominator (C26); `libsnark_h` panics when the domain is the whole multiplicative group (C32); the
Gao decoder returns words of too high degree unchecked (C15); `transpose` panics on ragged rows (C16).

## Per property plan

| id | model | proof |
|---|---|---|
| C01-C04 | `Model/Pss.lean` over `Model/Ark.lean` | sharing relation `Spec.Sharing`; DFT orthogonality for primitive roots; closure of the relation under +, scalar, product |
| C05, C06 | `lagrange_unpack`, `unpack_missing_shares` | correctness of `lagrange_interpolate` (C12) + uniqueness |
| C07 | `pack` | injectivity from Vandermonde / root counting, bijection on tapes |
| C08 | `PackedSharingParams::new`, `Radix2EvaluationDomain::new` | case analysis |
| C09-C12 | `Model/Utils.lean` | list inductions against Mathlib `Polynomial` |
| C13-C15 | `Model/Gao.lean` | loop invariant of extended Euclid, degree bounds, uniqueness argument |
| C16, C17 | `Model/Pack.lean` | loop invariants |
| C18 | `fft_in_place_rearrange` | loop invariant with bit reversal |
| C19-C23 | `Model/Dfft.lean` | stage invariant of decimation in time, linearity of packing, masks |
| C24-C26 | `Model/Protocols.lean` | sharing relation |
| C27 | king's view as function of tapes | bijection |
| C28 | same | negative: proved that high coefficients are unmasked (property false of the code) |
| C29, C30 | `Model/Qap.lean` | list reasoning |
| C31, C32 | `Model/Qap.lean` | composition of C19/C20, polynomial identities |
| C33, C34 | `Model/ProvingKey.lean`, `Model/Prove.lean` | composition |
| C35 | R1CS, circom-style key as specification | Groth16 completeness algebra over modules with a bilinear pairing |
| C36, C37, C40, C45, C49, C51 | same models | property false of the code: negation proved, plus the strongest true partial statement |
| C38, C41-C44 | `Model/Net.lean` | confluence (diamond) of the step relation + one canonical run |
| C39 | timeout relation | invariant over executions |
| C46, C47 | `Model/Wire.lean` | incremental decoder vs. FIFO, induction over chunks |
| C48-C52 | `Model/ProdNet.lean`, `Model/LocalNet.lean` | bookkeeping invariants |
| C53 | `AlwaysYieldsWithin`, `NeverFinishes` in `Spec/Net.lean` | message sizes of every run (`Runs (Upto B)`); blocked senders |
| C54 | `pack_vec`, `QAP::pss` | C07 per chunk, one translation of the tape |
| C55 | king's side of `d_fft`, `d_ifft`, `deg_red` | outputs are packings with the king's tape |
| C56 | same | a known tape determines the random coefficients; subtract and unpack |
| C57 | `PSS.deal` (`Model/Prove.lean`) | translation of seven tapes |
| C58, C60 | recorded processes (`Spec/View.lean`) | two-run coupling over all schedules; C60 adds the opened proof |
| C59 | `Spec/Groth16.lean` | C34 with the set-up equations |
| C61, C62 | recorded gathers | coupling including the king; converse by coefficient comparison |
| C63 | `Model/Refs.lean` | both sides equal the same polynomial |
| C64 | `Model/Checks.lean` | C19, C25, C26 followed by an opening round; `local_dfft` column by column |
| C67 | same models, arbitrary programs for one party (`Spec/Adversary.lean`) | an invariant of executions that composes over rounds and `try_join!` (`Lemmas/Session.lean`); the check of `unpack2` is one linear equation in which every share counts |
| C68 | `PSS.dPp`, `Proc.recorded` (`Properties/Products.lean`) | an explicit reader for the king; for the other parties the shift of C58 applied to the king's first packing and to the masks |
| C69 | `Model/Tests.lean` | every test is a program with its inputs as parameters; a test on the simulated network is a preparation, a party and a check (`NetTest`), and passes if the preparation succeeds, every schedule yields results, and the check holds for every order of hash map and tasks (`Passes`, `PassesLossy`) |
| C70 | `pack` (`Properties/Threshold.lean`) | distinct roots split off from polynomials with coefficients in a module; every polynomial with `2l` coefficients is a packing of its values |
| C71 | same models, parties may stop (`Spec/Silent.lean`) | an invariant that composes over rounds and `try_join!`, with a weight that decreases (`Lemmas/Silent*.lean`); negations by one run that ends stuck |
| C72 | executions with their history (`Spec/Trace.lean`) | per program a lower and an upper bound for what it still exchanges, preserved by every step; FIFO counting |
| C73 | `dMsmBench`, `msmBench` in `Model/Checks.lean` | constant polynomial; composition of rounds; checksum of the debug assertion |
| C74 | the king's recorded gather in `deg_red` | division with remainder by the known sharing polynomial; interpolation through secrets and shares; injection of (field element, bad tape) into tapes |
| C75 | the messages of the last step of `circom_h` and `libsnark_h` | C74's division for columns f·h + m with m = mask - C; back from the coset with the same transforms; for `libsnark_h` uniqueness from `C62_libsnark_h_leaks`; union bound over the rows of one mask |
| C76 | the messages of `d_msm` with bases from `det_pack`, alone and in a session | the sum polynomial has fewer than 4l coefficients; those from 2l on are not masked, the 2l below follow from its zeros at the l padded points and its values at the l servers (Lagrange). Session: recorded run of `dsha256` cut at the five multiplications |
| C77 | `LStep`, `GStep` and every protocol; `Spec/Streams.lean` adds bounded buffers and pending uses | local discipline "whose turn it is on each stream" preserved by every reliable step; global token count per pair and stream at most 1; contention from the disjoint streams of joined branches |
| C78 | the protocols with another closure for the king (`Spec/RogueKing.lean`); all other parties run the model's programs | a round with an arbitrary closure; the shifted run beside the honest one; linearity of sharings; the verification equation is bilinear |
| C79 | `circom_h` with a king that adds to its answers in two transforms (`Spec/ProbingKing.lean`); in a release build the king that adds nothing is that of the code (`circomHShift_zero`) | shifted run of the transforms; the checksum of a product with the probe is the value in the secret point (sums of powers of the root); Lagrange's formula for the top coefficient |
| C80 | `Model/Fields.lean`: `ark_bn254::Fr`, `ark_bls12_377::Fr` with arkworks' constants and 32-byte encodings | Pratt certificates (`Lemmas/Pratt.lean`, powers computed by the kernel); C08, C35, C53 with their conditions discharged; uniformity of single shares (C07) for the probability of a zero share |
| C81 | `Model/ByteNet.lean`: channels of bytes, the receiver's `Framed`, read steps of any size, codec failures | simulation by the network on messages (`BSteps.sim`, invariant `ChanRel`), progress (`BStep.progress`), reads bounded by bytes written; `Blocked` excludes sends over the limit; corollaries from `example_session` |
| C82 | `Model/Routing.lean`: set-up, then the protocol through the table of peers (`Proc.over`); parties are positions at the king's connections | one execution of set-up that leaves nothing in transit (`setup_runs`), then the protocol's own execution renamed from ids to connections (`Reach.over`, `Numbering`); confluence carries it to all schedules |
| C83 | `Model/Tls.lean`: the accept loop; TLS by its contract | induction on the loop; C82 for the session |
| C84 | executions with their history (`Spec/Volume.lean`) | what a party takes is what it records; the recorded transcripts are those of one execution (confluence); conservation of bytes; sizes of messages are exact in the `*_runs` lemmas |
| C85 | reading off the failing step (`Lemmas/SmallDomain.lean`) | lengths are preserved by every local step, so the strided packing has no rows and `transpose` panics; local computations fail only by panics; `C85_deal_iff` with the session theorem for the other direction |
| C86 | the token count of C77 made exact; `Spec/Reuse.lean` has `LeavesNothing` and `inTurn` (a party that runs programs one after the other; the example itself makes one proof) | when all have succeeded all turns are the clients', so no message is left; a run of each protocol from empty to empty queues, concatenated, then C44 for all schedules; C82 for the production network |
| C87 | the king's messages from the `*_view` lemmas (C61, C62); `inTurn` of C86 | equal tapes cancel in the difference, which is the first local transform of the difference of the shares; that transform is injective and sharings with at most n coefficients are unique, so a decoding function exists (`exists_recover`); fresh masks: transcripts of runs from empty to empty queues concatenate, C61 for each |
| C88 | `openProof` applied to arbitrary answers | any 4l values are on a polynomial with 4l coefficients, whose value at a secret point is a geometric sum, in closed form `weight`; the debug check is the checksum of `Lemmas/Robust.lean`; two unknowns for the two equations 'checksum unchanged' and 'opened value moved by Δ', whose determinant is not zero; the verifier by bilinearity |
| C89 | the same programs with clocks (`Proc.timed` in `Spec/Latency.lean`), the time of arrival in front of every message | a simulation in both directions (`StampedNet`); a schedule of gathers, scatters and joins that every party's program follows (`Follows`), by structure of the programs; a program that follows a schedule either ends in an error in some execution, which contradicts that it always succeeds, or reaches the end with the times of the schedule; confluence gives all executions |
| C90 | executions with their history (`Spec/Trace.lean`); `Spec/Traffic.lean` forgets the contents of messages and keeps their length | the messages on a link are a function of the protocol (confluence, `sentOn_prefix`), so their lengths are those of one execution (`RunsT`); two parties' programs that follow one schedule (`Follows` of C89) and see messages of equal length step alike (`Twin`), and a step of one can be copied by the other |
| C91 | `Model/Curves.lean`: the r-torsion of Mathlib's group of points of a short Weierstrass curve, ark-ec's compressed encoding | moduli by Pratt certificates; multiples of points computed on numbers by the kernel and transferred to the curve (`Lemmas/Curve.lean`); the order of the curve from the order of the generator, the bound `2q + 1` and `-3` not being a cube; for the twist a point of order 10069 leaves no room for `r²` |
| C92 | `addIdsOpts` (`Model/Bench.lean`): the option of a node and the size of the network apart | one run to the state where nothing moves, then confluence (`alwaysHalts_of_run`); `N(N-1)` and `n(n-1)` differ modulo `2^33` |
| C93 | `Model/Curves.lean`: the same for BLS12-377, with coordinates of 48 bytes and `u² = -5` | as C91; the factor of 226 bits of `q - 1` has a certificate of its own; `r² > 2q + 1` leaves one dimension for `G1`; `(0, 1)` has order three |
| C94 | `Model/ProdTests.lean`: the closure and the assertion of `add_protocol_inner`; `ChannelIO` as a list of byte vectors | a run of the two rounds and confluence, then C82; induction on the reads |
| C95 | `Model/Packets.lean`: `send_to`/`recv_from` pack and unpack every payload; set-up (C82) and the frames of C81 below it. The announced id and the opening of the streams are frames too | simulation of a run by the packed run (the concurrent receives have got only messages shorter than 2^64); set-up sends short messages whatever it receives; then confluence and C81 |
| C96 | the protocols as modelled for C20 to C37, run by `n` parties with the `pp` of `4l` shares; `Spec/Count.lean` says when `n` is enough or wrong | a round of `n` parties answers with the first `n` entries of the king's list (`runs_round_more`); decoding from the first `n` points; the missing share is a zero entry of the word `unpack2` sees, so that C88's formula gives the error |
| C97 | the session as modelled for C35; `Spec/Chance.lean` says what it means for it to work or never to end | message counts (C72): with a zero and a non-zero share two parties disagree about the number of rounds on stream zero, so some queue could not be empty at the end, though alternating parties that all ended leave none (`Paced`); the counts from C36 |
| C98 | `Model/Machine.lean`: the functions that compute with `usize`, again, with 64-bit addition, subtraction, multiplication and powers that panic or wrap; `Spec/Machine.lean`: networks that behave alike, and a session that works, for these functions | each local function equals its exact version under a bound on its input, by rewriting its arithmetic and congruence of loops; the protocol programs are related by `Same` (equal up to provably equal continuations on lists of parties that fit), which every step of every network preserves; the bounds of a session from the sizes the client deals |
| C99 | `Spec/Builds.lean`: panics or agrees; networks alike until somebody panics; a session with a build for each party | relation `Weaker` between results preserved by every combinator, hence by every function; relation `Weak` between programs (the stricter one may have panicked), a simulation in both directions; a session of debug servers with any client by `session_mixed`, then monotony; the converse from C97 for the most lenient builds |
| C100 | `Spec/Statistical.lean`: probabilities over everything the client draws, advantage of a test, observation of a session, adaptive sequences of sessions | the values added in C60 give a bijection of the draws, exact but for draws with a zero share of r (C36); a hybrid argument over sessions by averaging over the first draw |
| C101 | `Spec/Simulator.lean`: a session on the blank assignment, the trapdoor proof of Groth16 | C58 for every change of r and s gives a bijection of the draws of a session together with those of an independent prover; C59 identifies the opened proof; the trapdoor proof is that of Groth16 up to an affine change of r and s |
| C102 | `Spec/KnownTape.lean`: the draws of C100 with the part for the program fixed | the test asks whether the observation is one of the first assignment; C56 excludes common observations; sessions end by C58 and C36 |
| C103 | `Model/Curves.lean`, `Spec/Simulator.lean`, `Spec/KnownTape.lean` | C101 and C102 over BN254: both groups have as many elements as the scalar field (C91), so a point other than infinity spans; the generator of the coset by C80; keys by C35 |
| C104 | `Model/Cost.lean`: `fft1_in_place` and `fft2_in_place` with a counter; `Spec/Cost.lean` | a counted computation is the computation and a number, through binds and loops; the sums in closed form |
| C105 | `Spec/KingKnows.lean`: observations of the king and `l` servers over the draws of C100 | the function of C76 is right whenever no share of `r` is zero (C36 bounds the rest); sessions end by C58; BN254 as in C103 |
| C106 | `Spec/Guess.lean`: errors that shift the answer by one and pass the check, servers that spoil their masks, two shifts made from a guess | a polynomial that is zero for the servers with a weight and at all secret points but one would contradict interpolation if few weights were nonzero (C106_weights); spoiled masks give the session of C78's king; the shifts move the defect of the Groth16 equation by a multiple of the difference of the sums |
| C107 | `Spec/Cheaters.lean`: errors in every message to the king, inputs on which the code sends them, errors the debug check does not notice, what `l` servers have of a session | `unpack` is linear, so errors add fixed values to the secrets (`unpack_err`); the couplings of C58 are redone with these values (`*_couple_err`); a strategy fixes the errors once what the servers have is fixed (C107_adaptive) |
| C108 | `Spec/Noticed.lean`: the weighted sum of the errors of a column is not zero | honest messages pass the degree check, so by linearity the check fails exactly when the errors alone fail it; the king's panic leaves every other server without an answer (`round_king_fails`); interpolation at the share points for a single server |
| C109 | `Spec/CheatOdds.lean`: what the servers have of a session as a function of the draws, strategies that decide the course of a session | the shift of the draws in C107_adaptive depends on what the servers have, so it gives one bijection per value; equal probabilities of all values outside a bad event bound every test (`close_of_fibres`); the bad event is a zero share of r (C100) |
| C110 | `Spec/CheatOdds.lean` (`SameAt`, `Causal`): the errors of the twelve messages, strategies that go by the answers before | two runs of the same session with different errors in lockstep (`Follow`): as long as the errors agree, so do the answers; induction over the twelve messages gives uniqueness, iterating "errors for v, then what the servers have with them" gives existence after twelve rounds |
| C111 | specification of C110 | C109_sessions with C110_decided; on BN254 the number of elements of field and groups from C80 and C91 |
| C112 | `Spec/Dies.lean`: no server finishes in any reliable execution; in one of the twelve messages the weighted errors do not cancel | one execution leads to a state in which the king has failed on a stream and everybody waits for an answer on it (`Dead`); this is preserved by steps, and by confluence every execution can be joined with it, so none contains a finished server (`Dead.nobody`); composition along bind and joined streams (`Fate`); C108 for the single rounds |
| C113 | `Spec/Rushing.lean`: the rounds of the twelve messages; ways to cheat that choose the next message and its errors by the answers so far (`Play`), the errors that result, and which of them keep to the rounds (`Play.Legal`) | two runs with different errors message by message (`Track`): an answer is the same if the errors agree in that message and in the rounds before; induction over the turns; then as C110 and C111 |
| C65, C66 | `Model/Bench.lean` | interpolation, geometric sums, loop invariants, one star round |
