{
 "C01": [
  "proved",
  "pack/unpack/unpack2 round trip for every power-of-two l, module, tape and build."
 ],
 "C02": [
  "proved",
  "det_pack round trip; short vectors panic in debug and are zero padded in release."
 ],
 "C03": [
  "proved",
  "Sum and scalar multiple of packed shares."
 ],
 "C04": [
  "proved",
  "Product of two packed sharings decodes with unpack2."
 ],
 "C05": [
  "proved",
  "Any >=4l-1 distinct parties (products), any >=2l (single sharing, release)."
 ],
 "C06": [
  "proved",
  "Both decoders; a full list ignores the party order, with a concrete wrong decoding."
 ],
 "C07": [
  "proved",
  "View of l parties is a bijective image of the randomness when GENERATOR^(4l) != 1; a witness that the condition is needed."
 ],
 "C08": [
  "proved",
  "Success, panic beyond two-adicity, debug panic / release inconsistency for non powers of two."
 ],
 "C09": [
  "proved",
  ""
 ],
 "C10": [
  "proved",
  "Quotient, zero padding and exact panic condition."
 ],
 "C11": [
  "proved",
  ""
 ],
 "C12": [
  "proved",
  "Existence, uniqueness, truncation; zero points panic."
 ],
 "C13": [
  "proved",
  "Bezout and degree relation for a positive stop bound; no result for stop bound 0 (the all-zero input, where Rust loops forever, is modelled as a panic)."
 ],
 "C14": [
  "proved",
  ""
 ],
 "C15": [
  "proved",
  "Closeness; ok-or-panic; plus a theorem that non-messages (degree >= k) are returned unchecked."
 ],
 "C16": [
  "proved",
  "Entries, double transposition, the three panicking shapes, and truncation of over-long rows, for all matrices."
 ],
 "C17": [
  "proved",
  "For all vectors of N chunks, all randomness and both build profiles; a debug build panics on other lengths."
 ],
 "C18": [
  "proved",
  "Bit reversal stated through testBit; involution; all k."
 ],
 "C19": [
  "proved",
  "All l=2^b, all sizes 2^(a+b), all inputs of 2l..4l-1 coefficients, all masks and randomness, every schedule of a reliable network."
 ],
 "C20": [
  "proved",
  "As C19, including multiplication by powers of g."
 ],
 "C21": [
  "proved",
  "Composition on the same session; the opened result is the input."
 ],
 "C22": [
  "proved",
  "The opened results with sampled masks and with zero masks agree."
 ],
 "C23": [
  "proved",
  "For arbitrary failures/time-outs with at most one party missing d_fft/d_ifft that finishes gives the same value; and such runs do finish."
 ],
 "C24": [
  "proved",
  "deg_red under every schedule: 2l-coefficient shares of the same secrets; multiplication of dealt vectors end to end."
 ],
 "C25": [
  "proved",
  "d_msm under every schedule: every party's share opens to the multi-scalar product in every slot; unequal lengths fault or fail."
 ],
 "C26": [
  "proved",
  "d_pp under every schedule: shares of the running products of num/den; a zero denominator makes the king panic and everybody else wait."
 ],
 "C27": [
  "proved",
  "For fresh (2l-coefficient) inputs the messages to the king in d_fft/d_ifft are evaluations of polynomials that are in bijection with the random values drawn by FftMask::sample; hence every view has exactly one tape, and for two inputs a bijection of tapes equates the views. The king's own mask share and the tape of the out-mask are not part of the view; d_fft called on un-reduced (up to 4l-1 coefficients) shares is not covered (there C28's leak appears)."
 ],
 "C28": [
  "proved",
  "The English claim of complete masking is false of the code: for every mask the coefficients from 2l on are the unmasked ones (deg_red and d_msm), and over F17 a view is exhibited that zero secrets can never produce. The _partial theorem is the part that holds: the lower 2l coefficients are uniformly masked."
 ],
 "C29": [
  "proved",
  "All matrices and assignments; the error for too large systems and the panic for a bad column are characterised."
 ],
 "C30": [
  "proved",
  "All l=2^b, all domain sizes 2^(a+b), all randomness."
 ],
 "C31": [
  "proved",
  "All l, m, vectors, masks, randomness, every schedule of a reliable network."
 ],
 "C32": [
  "proved",
  "All l, m, vectors, masks, randomness, every schedule. Needs a non-zero field element outside the domain (otherwise the vanishing polynomial is zero on the coset and the code panics); C32_end_to_end starts from the constraint system. C32_whole_group_panics: on such a domain every server panics after the six transforms, under every schedule."
 ],
 "C33": [
  "proved",
  "For every key with non-empty a/b queries: n shares, public points unchanged, the five vectors shared in chunks of l (release: zero padded; debug: lengths must be multiples of l). The debug panic on every other key and the panic on empty queries are proved too."
 ],
 "C34": [
  "proved",
  "A, BInG1 (no share of r zero), BInG2, C: under every schedule the outputs are shares of the Groth16 formulas and unpack2 opens them to l copies. The case of zero shares of r is C36."
 ],
 "C35": [
  "proved",
  "For every circuit, satisfying assignment, set-up secrets, r, s and client randomness: dealing (PSS.deal), the servers (dsha256) under every schedule, opening; the opened elements satisfy the verification equation for every bilinear map. With l copies of r the shares of r must be all non-zero (C36) and in debug builds the key aligned (C33); as written (n copies, release) no condition. Converse: for a non-satisfying assignment the proof verifies iff tau is a root of a fixed non-zero polynomial of degree < m. In debug builds the example as written panics. The set-up itself (ark-groth16 with CircomReduction) is a specification (IsQap, IsCircomKey), shown satisfiable by C35_key_exists."
 ],
 "C36": [
  "proved",
  "The desired property is false of the code; its negation is proved: a zero share returns the identity without communicating; whenever some share is zero every schedule ends in a deadlock of all other parties; for every non-zero r and every party a tape of pack exists that makes it happen. Strongest positive part: C34_B_in_G1 (no share zero). C36_share_uniform and C36_zero_share_rare: each share is uniform, so at most 4l in |F| choices of the dealer make it happen.",
  [
   "C34_B_in_G1"
  ]
 ],
 "C37": [
  "proved",
  "The desired property is false of the code; its negation is proved: packing n copies of r panics in a debug build and gives every party r itself in a release build, for every l, r and tape. Packing l copies instead is private (C07).",
  [
   "C07_privacy"
  ]
 ],
 "C38": [
  "proved",
  "Raw and serialized rounds, arbitrary contents of other streams, every schedule."
 ],
 "C39": [
  "proved",
  "Arbitrary failures and time-outs; 'delivered' is observed from outside (sent and no longer in transit). Every subset of responders and every hash-map order is shown to occur."
 ],
 "C40": [
  "proved",
  "False of the release build: for every responder set of size between t=l and 4l-2 there are honest inputs whose run ends successfully with wrong products (C40_release_wrong). Debug builds never return a wrong value under arbitrary failures (C40_debug_*), the king panics (C40_debug_king_panics), and with at least 4l-1 responders every build is correct (C40_enough_deg_red, C23)."
 ],
 "C41": [
  "proved",
  "Every schedule; also vectors that are too short (king panics)."
 ],
 "C42": [
  "proved",
  "Arbitrary bytes of every party."
 ],
 "C43": [
  "proved",
  "All programs with disjoint streams in concurrent branches (Proc.WF in Spec/Net.lean)."
 ],
 "C44": [
  "proved",
  "Generic theorem for all programs, and its instances for each protocol (every schedule ends with the correct shares).",
  [
   "C19_d_fft",
   "C20_d_ifft",
   "C24_deg_red",
   "C25_d_msm",
   "C26_d_pp",
   "C31_circom_h",
   "C32_libsnark_h"
  ]
 ],
 "C45": [
  "proved",
  "False of the code: negation proved for every n, every set of late parties and all messages; after the time-out every schedule mixes the rounds up."
 ],
 "C46": [
  "proved",
  "Every message list, every cutting of the bytes into reads, every point at which the connection is cut. The byte stream below the codec is a contract (TCP/TLS/smux deliver in order)."
 ],
 "C47": [
  "proved",
  "Includes the frame limit for ProdNet payloads (8 MiB - 12) and that trailing bytes of a frame are ignored (decode_encode with junk), i.e. encodings are unique but a receiver accepts extra bytes."
 ],
 "C48": [
  "proved",
  "Every iteration order of the hash map and every schedule. The multiplexer's opening of streams is modelled by three messages."
 ],
 "C49": [
  "proved",
  "The desired property (one connection per party) is false; proved: the exact map the king ends up with for arbitrary announced ids, that it is complete iff the ids are a permutation of 1..n-1, and what follows for later rounds when a party is missing. What the peer of a replaced connection observes after the replacement is not modelled."
 ],
 "C50": [
  "proved",
  "All interleavings of the dial/accept tasks and all accept orders; runs are finite, end in a full mesh after exactly 3n(n-1) steps, never stuck before. Genesis round and final check succeed on a reliable network."
 ],
 "C51": [
  "proved",
  "False of the code for LocalTestNet: C51_local_never proves is_init is false in every state because of the node's own entry; C51_local_others: without that entry it would be true exactly for the full mesh. True for ProdNet (C51_prod)."
 ],
 "C52": [
  "proved",
  "FuturesOrdered is modelled by its index heap; all orders of hash map iteration and of completion. A panicking task makes the round panic; the lossy variant drops the last party's result and panics for no parties."
 ],
 "C53": [
  "proved",
  "AlwaysYieldsWithin lim: as AlwaysYields on a network that transports no message over lim bytes. NeverFinishes lim: the client never returns Ok, whatever else fails. Both for every lim; C53_local_limit and C53_prod_limit tie lim to the codec model of C46/C47, C53_elements_of_32_bytes works out a <= 17."
 ],
 "C54": [
  "proved",
  "For pack_vec (any module), pack_from_witness and QAP::pss (three vectors jointly). The tape is uniform in the statement; C56 is about what the code draws it from."
 ],
 "C55": [
  "proved",
  "d_fft, d_ifft (field) and deg_red (any module), under every reliable schedule. The tape is the king's; d_fft's king takes test_rng in the code (see C56)."
 ],
 "C56": [
  "proved",
  "A finding: QAP::pss and d_fft's king use ark_std::test_rng(). That test_rng is a fixed tape is ark_std's (its getrandom feature is off in the repository); the theorem is for every fixed tape."
 ],
 "C57": [
  "proved",
  "With l copies of r and s the coalition's inputs are the same after a translation of the tape (seven components; the tapes of the masks untouched). For the code as written (n copies, release build) C57_example_reveals shows each server is given r and s."
 ],
 "C58": [
  "proved",
  "Recorded executions (Spec/View.lean) with a two-run coupling. The recording includes what the king gathers, and the statement compares the transcripts of all parties other than the king; the king's transcript is C61 (with the leak of the upper coefficients, C28). The session needs masks drawn from groups generated by gen1 and gen2, and shares of r that are all non-zero or all zero (C36); the statement is about l copies of r and s being packed, not the n copies the example packs (C57_example_reveals)."
 ],
 "C59": [
  "proved",
  "Spec/Groth16.lean IsGroth16Proof is the proof of the paper; l copies of r and s packed (C59_groth16_proof) and the example as written in a release build (C59_example_release). Shares of r all non-zero or all zero, see C36."
 ],
 "C60": [
  "proved",
  "C58 together with the opened proof. The king's transcript is not compared (C61, C28). Needs the shares of r of both sessions to be all non-zero (C36 says what happens otherwise), random tapes instead of test_rng (C56), and l copies of r and s (C57_example_reveals)."
 ],
 "C61": [
  "proved",
  "For d_fft and d_ifft the inputs have 2l coefficients (fresh shares or outputs of an earlier transform). For deg_red and d_msm the condition on the upper coefficients is necessary (the _leaks theorems) and sufficient."
 ],
 "C62": [
  "proved",
  "C62_circom_h and C62_libsnark_h couple runs on two programs through the random tapes, the king's transcript included; C62_shift_bijective shows that the change of tapes is a bijection; C62_circom_h_leaks and C62_libsnark_h_leaks are the converse: equal king transcripts force the shares of A·B - C to differ by 2l coefficients only. EvaluatesTo is stated through executions of d_ifft and d_fft. The king's randomness is the same in the two runs; the masks are sampled with random tapes (not test_rng)."
 ],
 "C63": [
  "proved",
  "The references are modelled line by line (ext_wit.rs:204-285); witness_map_from_matrices belongs to ark-circom and is modelled by its documented behaviour. libsnark needs a field element whose 2^(a+b)-th power is not 1, otherwise the code panics (C32)."
 ],
 "C64": [
  "proved",
  "Programs transcribed in Model/Checks.lean; the fixed vectors of the source are parameters there, so the theorems hold for all vectors of the right length. d_pp_test needs non-zero entries, as in the source (1..m)."
 ],
 "C65": [
  "proved",
  "Non-powers of two in release builds: proved to panic (C65_local_groth_not_pow2), so the accepted sizes are wider than the usable ones. In the source p, q and w are 0..m; here they are arbitrary."
 ],
 "C66": [
  "proved",
  "The overflow of the u32 sum in debug builds is proved as C66_add_ids_overflow. bincode2 of a u32 is modelled as 4 little-endian bytes; the TLS set-up before the exchange is C49."
 ],
 "C67": [
  "proved",
  "True of debug builds only; the three ways in which it fails are proved as C67_release_cheater, C67_two_cheaters and C67_late_party. Safety with abort: a cheater can always make the others fail or wait."
 ],
 "C68": [
  "proved",
  "Finding: s = 1 (dummy randomness) and no mask in the first round, so the king reads all inputs off it (C68_king_learns, an explicit function). C68_coalition: any l other parties see nothing."
 ],
 "C69": [
  "proved",
  "All unit tests with assertions as programs with free inputs. Two are false in general: test_packing panics in debug builds for l >= 4 and test_eval_interpolate fails exactly if the last coefficient is zero; both are stated as equations that say when."
 ],
 "C70": [
  "proved",
  "Tightness of C07: C70_exact characterises the common views of at most 2l parties; C70_few_changes_show and C70_more_changes_hide draw the line at l + m parties. C05 covers the recovery by all parties."
 ],
 "C71": [
  "proved",
  "Liveness and agreement with the run in which nobody falls silent. The limits are proved as C71_two_silent, C71_d_pp_debug (debug builds) and C71_threshold; wrong results of release builds with too few answers are C40_release_wrong."
 ],
 "C72": [
  "proved",
  "C72_needs_king and C72_king_stops hold for every program that takes rounds; C72_zero_share is the session level form of the fault of C36. The histories are those of the executions of the network model (C72_trace)."
 ],
 "C73": [
  "proved",
  "The fields, groups and sizes of the source are parameters. A release build with different numbers at the parties opens whatever polynomial the local products lie on (C67 treats the consequences)."
 ],
 "C74": [
  "proved",
  "For products of two fresh sharings (2l coefficients each). learn is noncomputable only because polynomial division in Mathlib is."
 ],
 "C75": [
  "proved",
  "circom_h: an explicit function, noncomputable only because polynomial division in Mathlib is. libsnark_h: stated as equality of b in indistinguishable runs, because its last step is a transform and an explicit function would have to undo it."
 ],
 "C76": [
  "proved",
  "The session theorem names three of the five sums (those over the a query, the b query in G2 and the private part of the key). Assumes, as C35, that the shares of r are all zero or all nonzero (C36). Exactness is proved for a single d_msm."
 ],
 "C77": [
  "proved",
  "All protocols: one message in flight (for all inputs and n), no contention (on any network) and, whenever the run yields a result, the same result on buffers of any size from one message on. C77_proof_verifies: the proof verifies on buffers of one message. C77_pending: the specification of a pending use covers every send and receive step. C77_same_stream: two d_msm on one stream contend. C77_timeouts: with king time-outs the backlog is unbounded. Example: a program that deadlocks with one-message buffers."
 ],
 "C78": [
  "proved",
  "Rounds for arbitrary answers of the king; d_msm with a shifted answer; a whole session with five shifts and when the verifier accepts; corollary: a rejected proof. The dishonest king of C78_session is the program runShift at party 0; for every other party runShift is the program of the model (runShift_server)."
 ],
 "C79": [
  "proved",
  "The king alone reads a chosen slot of a chosen vector in every position; after l runs it knows the b vector; the quiet variant keeps the result right and gives l parties one linear equation per position (all of b for l = 1). The king runs circomHShift, everybody else the program of the model."
 ],
 "C80": [
  "proved",
  "Primality and orders by Pratt certificates whose powers the kernel computes (Lemmas/Pratt.lean); the moduli and constants are those of ark-bn254 0.4 and ark-bls12-377 0.4. The groups are any modules over the field: that the points of the curves are one is not proved. The sessions are those of C35 (release build) with the conditions discharged."
 ],
 "C81": [
  "proved",
  "Model/ByteNet.lean: byte streams with the codec of Model/Wire.lean, reads of any size, failures of the codec. Every execution on bytes is simulated by one on messages (BSteps.sim), progress carries over, and the reads are bounded by the bytes written."
 ],
 "C82": [
  "proved",
  "A successful protocol of a king and its clients succeeds with the same results after the set-up of the production network, for every order of connections, hash map order and schedule; all protocols are of this kind; add_ids and the session of the example as corollaries."
 ],
 "C83": [
  "proved",
  "The accept loop of the king in full; the session part is C82 with connections of arbitrary certificates."
 ],
 "C84": [
  "proved",
  "Executions with their history; the bytes taken by a party are those in its recorded transcript (Lemmas/Volume.lean), and every message of a protocol has a size that depends on the parameters only. Sizes are those of the serialised values; the length prefix of a frame (C47, C53) comes on top for each message."
 ],
 "C85": [
  "proved",
  "A circuit smaller than the packing factor: empty shares, a panicking sampler, a panicking dealer; with a fitting key dealing succeeds in a release build iff the domain has at least l points. The transforms of empty shares panic (debug) or leave the clients waiting for a king that has panicked (release). That dealing fails only by panics is a lemma (PSS.deal_onlyPanics)."
 ],
 "C86": [
  "proved",
  "For all inputs and schedules; sequences of any length; a production network serving any number of proofs of different circuits. C86_leftovers_matter is the counterexample without the hypothesis. Failures in an earlier protocol are C45 (late messages)."
 ],
 "C87": [
  "proved",
  "Two runs with the same masks give the king the difference of the inputs, by one function for all masks and inputs (C87_d_fft, C87_d_ifft, C87_deg_red, C87_d_msm, C87_circom_h, C87_libsnark_h); with masks of their own any number of transforms in turn hide as one does (C87_views, C87_fresh_d_fft)."
 ],
 "C88": [
  "proved",
  "Exact for all answers (C88_open, C88_unpack2); what one server of a release build and two servers of any build do with it (C88_one_server, C88_two_servers, C88_verifier, C88_session). That one server of a debug build cannot is C67_proof. Assumes that the generator is no 4l-th root of unity, as for the curves in use (C80)."
 ],
 "C89": [
  "proved",
  "Clocks: Proc.timed (Spec/Latency.lean) writes the time of arrival in front of every message; C89_clocks_only_measure says that this changes nothing else. The protocol theorems assume only that the protocol always succeeds (C19, C20, C24, C25, C26, C31, C32, C35 say when) and give the number of round trips; C89_proof and C89_example_release put both together for a session."
 ],
 "C90": [
  "proved",
  "SameTraffic compares all executions without network faults, step by step: sender, receiver, stream, length, which party computes, and who has finished. TLS record framing and time are not modelled. C90_same_messages gives the messages themselves. The session theorem needs that no packed share of r is zero; C90_example_release drops this and says exactly what the traffic shows."
 ],
 "C91": [
  "proved",
  "groups of BN254: order, encoding, d_msm, proofs and bytes of a session over the concrete curves; the pairing is any bilinear map"
 ],
 "C92": [
  "proved",
  "all options of all nodes, all schedules"
 ],
 "C93": [
  "proved",
  "The constants of ark-bls12-377 0.4 are given; that the modulus is prime, the generators lie on the curves and have order r, |G1| = r and that -5 is not a square is proved by computation in the kernel. Square roots and the subgroup test of the reader are taken by their contract, as in C91. The order of G2 is not determined (it would need a large part of the order of the twist); C93_pairing_exists is therefore stated point by point."
 ],
 "C94": [
  "proved",
  "Set-up and routing are those of C82, from the established connections on (TLS: C83). The sum is over `u32`, with the overflow check of debug builds. ChannelIO is modelled apart from the protocols: a channel of byte vectors read with buffers of any size. Its behaviour after the sender is dropped (an error) is not modelled."
 ],
 "C95": [
  "proved",
  "Packets around every payload preserve always-succeeding (C95_packets); set-up, packets, frames and pieces together (C95_session); handshake and payload packets are told apart; all protocols qualify; the example session and its BN254 instance."
 ],
 "C96": [
  "proved",
  "Fewer servers (C96_d_fft, d_ifft, deg_red, d_msm, d_pp_release, circom_h, libsnark_h, session); the client of the example on one share too few (C96_open_short, last conjuncts of C96_session); wrong counts (…_wrong). Sessions and the h protocols are proved for exactly one missing server, where every sharing of theirs, up to 4l-1 coefficients, is still determined."
 ],
 "C97": [
  "proved",
  "C97_mixed holds for any number of servers and any inputs. C97_works_iff is an equivalence; the bad sessions are shown never to end. C97_chance bounds the number of bad choices from both sides (the factor 4l between the bounds is the union bound)."
 ],
 "C98": [
  "proved",
  "Equality of the functions with 64-bit arithmetic and the exact ones used in the other properties; for networks both directions of simulation with equal queues, results and stuckness (BehaveAlike), for every class of faults. C98_works carries C97 over to machine integers. C98_new_wraps is a finding."
 ],
 "C99": [
  "proved",
  "C99_protocols and C99_servers give both directions of simulation for every class of faults, with queues, results and stuckness compared; C99_session is monotone in the builds; C99_works is an equivalence. The exact integers of the other properties are used (C98 covers overflow)."
 ],
 "C100": [
  "proved",
  "All draws of the client are values of one finite uniform space (`Draws`); lengths beyond what a session uses do not matter (`deal_congr`). C60 gives a translation of that space that turns sessions on one assignment into equally observed ones on the other unless some share of r is zero, and such draws are counted with C36. Sessions that do not end are part of what is observed (`none`). The king is left out of what is sent, as in C60; C61 and C62 treat it."
 ],
 "C101": [
  "proved",
  "C101_delegation: a session on the blank assignment with an independent Groth16 prover; C101_simulator: the same with the trapdoor proof; C101_sessions: adaptively many; C101_verifies: simulated proofs verify. The king is left out of what is sent, as in C60; observing it breaks the claim (C76)."
 ],
 "C102": [
  "proved",
  "C102_told_apart gives the test, C102_ends that sessions end with any tape for the program, C102_not_close the contrast with C100. Which sequence test_rng gives does not matter."
 ],
 "C103": [
  "proved",
  "C103_instance (there is such a circuit, key and assignment for every satisfied constraint system), C103_simulated, C103_ends, C103_told_apart. All hypotheses of C101 and C102 on the field and the groups are discharged for BN254."
 ],
 "C104": [
  "proved",
  "C104_fft1_any and C104_fft2_any count on every input, C104_fft1, C104_fft2 and C104_scale in closed form, C104_split compares with one machine. Additions and the one pow per layer are not counted; nor is the work of packing and unpacking, which is arkworks code."
 ],
 "C105": [
  "proved",
  "C105_learns, C105_told_apart, C105_bn254. The claim is about C76 in terms of probabilities; only three of the five sums of the prover are computed."
 ],
 "C106": [
  "proved",
  "C106_weights, C106_helpers: who can cheat. C106_one, C106_two: errors that go unnoticed. C106_clients: servers have the power of the king of C78. C106_king, C106_servers: the equivalence. The shares of r are to be all zero or all nonzero, which by C36 fails for few draws only."
 ],
 "C107": [
  "proved",
  "C107_session: any fixed errors. C107_adaptive: errors chosen by what the servers have of the session; a run of servers who choose as they go is one in which the errors are those for what they end up with. C107_d_msm_message, C107_fft_message, C107_deg_red_message: spoiled masks amount to errors in the messages. C107_honest: no errors, no change. The king runs the code, and messages have the right lengths. The opened proof may differ (C106). In debug builds errors that fail the check end the session; whether they do depends on the errors only (unpack_err, C88)."
 ],
 "C108": [
  "proved",
  "For d_fft, d_ifft, deg_red and d_msm of a debug build with the masks the client deals, whatever is shared: the king panics and the others wait for ever under every schedule if the errors, weighted with the powers of the share generator, do not cancel in some column, and all servers finish otherwise. One wrong server is always noticed; for every server exactly one error cancels those of the others. C112 says the same of whole sessions."
 ],
 "C109": [
  "proved",
  "The king follows the protocol and is not among the l servers. Strategies are functions from what the servers have to errors; Decided excludes strategies that refer to their own outcome, and is proved for strategies that choose by what is dealt (C109_decided)."
 ],
 "C110": [
  "proved",
  "The messages are taken in the order of the record: those of the three concurrent transforms in the order of their streams. Servers that wait for the answer on a later stream before they send on an earlier one are covered by C113. The king follows the protocol and is not among the l servers."
 ],
 "C111": [
  "proved",
  "C110 over several sessions (by the hybrid argument of C99) and on the curves of C91. The king follows the protocol; the messages of the three concurrent transforms count in the order of their streams, C113 lifts this."
 ],
 "C112": [
  "proved",
  "Sessions of debug builds in which any servers add errors to any of their messages. 'Nobody finishes' is a statement about every reliable schedule, with the king's panic in one of three joined transforms while the others go on. The shares of r must be nonzero (with a zero share the code skips a round, C36), and the key aligned (a debug build cannot deal others)."
 ],
 "C113": [
  "proved",
  "Removes the limit of C110 and C111 that concurrent messages are sent in the order of their streams. The cheating servers act together: what they add to a message is chosen in one turn, and a message of a later round is chosen after the answers of the earlier rounds (sending it earlier only means to choose it knowing less). The king follows the protocol and is not among the l servers."
 ]
}