{"id": "C01", "title": "Packing then unpacking returns the secrets", "statement": "For every packing factor l that is a power of two and supported by the field, for every vector of l secrets (field elements or group elements) and every randomness drawn by the packer, pack yields n = 4l shares and both unpack and unpack2 applied to those shares return exactly the secrets; nothing panics in debug or release builds.", "quantifier": "all supported l, all secret vectors over any coefficient module, all random tapes, both build profiles", "why_tests_cant": "one l, one field and one random tape are exercised; the claim is over all of them", "anchors": ["secret-sharing/src/pss.rs::pack", "secret-sharing/src/pss.rs::unpack", "secret-sharing/src/pss.rs::unpack2"]}
{"id": "C02", "title": "Deterministic packing round-trips", "statement": "For every supported l and every vector of l secrets, det_pack yields 4l shares which unpack and unpack2 map back to the secrets. In a release build a shorter vector is treated as if padded with zeros; in a debug build it panics.", "quantifier": "all supported l, all secret vectors of length at most l, both build profiles", "why_tests_cant": "tests use one length and one l; the short-chunk case occurs only for proving keys whose size is not a multiple of l", "anchors": ["secret-sharing/src/pss.rs::det_pack"]}
{"id": "C03", "title": "Shares are linear", "statement": "Adding two share vectors position-wise, or scaling one by a field constant, gives shares of the position-wise sum, respectively the scaled secrets: unpack returns s1+s2, respectively c*s1.", "quantifier": "all supported l, all pairs of share vectors produced by pack, all scalars", "why_tests_cant": "quantifies over all pairs of sharings and scalars", "anchors": ["secret-sharing/src/pss.rs::pack", "secret-sharing/src/pss.rs::unpack"]}
{"id": "C04", "title": "Shares can be multiplied once", "statement": "Multiplying two freshly packed share vectors position-wise (field times field, or field scalar times group element) gives shares that unpack2 maps to the position-wise products of the secrets.", "quantifier": "all supported l, all pairs of secret vectors, all random tapes", "why_tests_cant": "a product of two random polynomials of degree 2l-1 must never exceed what unpack2 can handle, for every l", "anchors": ["secret-sharing/src/pss.rs::unpack2", "dist-primitives/src/dmsm/mod.rs::d_msm"]}
{"id": "C05", "title": "Reconstruction from a subset of the shares", "statement": "lagrange_unpack returns the secrets when given the shares of any set of distinct parties, in any order, provided there are at least 4l-1 of them (products of two sharings) - one dropout tolerated; for unmultiplied shares any 2l parties suffice in a release build.", "quantifier": "all supported l, all sets and orders of surviving parties of sufficient size, all sharings of the stated degree", "why_tests_cant": "exponentially many subsets and orders; tests use one prefix", "anchors": ["secret-sharing/src/pss.rs::lagrange_unpack", "secret-sharing/src/utils.rs::lagrange_interpolate"]}
{"id": "C06", "title": "unpack_missing_shares picks the right decoder", "statement": "Given shares and the matching list of party ids, unpack_missing_shares returns the secrets both when all n shares are present in party order and when exactly one party is missing, in any order. When all n shares are present the party list is ignored, so a permuted full list is decoded as if it were in order.", "quantifier": "all supported l, all sharings of products, all (n-1)-subsets in all orders", "why_tests_cant": "order comes from hash-map iteration at run time, which tests do not control", "anchors": ["secret-sharing/src/pss.rs::unpack_missing_shares", "mpc-net/src/ser_net.rs::client_send_or_king_receive_serialized"]}
{"id": "C07", "title": "l shares reveal nothing about the secrets", "statement": "For any l distinct parties and any fixed secrets, the map from the packer's l random values to the l shares those parties see is a bijection; hence the joint view of any l parties has the same (uniform) distribution for every secret vector. Needs the share points and secret points to be disjoint, i.e. GENERATOR^(4l) != 1.", "quantifier": "all supported l, all coalitions of l parties, all secret vectors", "why_tests_cant": "a distributional statement over all random tapes", "anchors": ["secret-sharing/src/pss.rs::pack"]}
{"id": "C08", "title": "Parameter construction is consistent", "statement": "PackedSharingParams::new(l) succeeds for every power of two l with 4l within the field's two-adicity, with n = 4l, t = l and domain sizes 4l, 2l, 4l; it panics when 4l exceeds the two-adic subgroup. For l not a power of two a debug build panics, while a release build returns parameters whose n differs from the number of shares pack produces.", "quantifier": "all l, both build profiles", "why_tests_cant": "ranges over all l", "anchors": ["secret-sharing/src/pss.rs::new"]}
{"id": "C09", "title": "eval and eval_many evaluate polynomials", "statement": "eval(p, x) is the value at x of the polynomial with coefficient list p (lowest first), eval_many is the same at every point.", "quantifier": "all coefficient lists, all points, any field", "why_tests_cant": "all inputs", "anchors": ["secret-sharing/src/utils.rs::eval", "secret-sharing/src/utils.rs::eval_many"]}
{"id": "C10", "title": "Synthetic division is polynomial division", "statement": "For a>=1, b!=0 and a dividend with more than a coefficients, syn_div(p,a,b) has the dividend's length and is the quotient of p by X^a-b with zero padding: p = q*(X^a-b)+r with deg r<a. It panics exactly when a=0, b=0 or len<=a.", "quantifier": "all dividends, all a, all b", "why_tests_cant": "all lengths and divisor degrees; the a=1, b=1 and general branches must agree", "anchors": ["secret-sharing/src/utils.rs::syn_div", "secret-sharing/src/utils.rs::syn_div_in_place"]}
{"id": "C11", "title": "get_zero_roots builds the vanishing polynomial", "statement": "get_zero_roots(xs) is the coefficient list of the product of (X-x) over xs.", "quantifier": "all point lists", "why_tests_cant": "all lengths", "anchors": ["secret-sharing/src/utils.rs::get_zero_roots"]}
{"id": "C12", "title": "Lagrange interpolation is exact", "statement": "For distinct non-zero points xs and equally many values ys (field or group), lagrange_interpolate returns the unique coefficient list of length at most |xs| whose polynomial takes value ys[i] at xs[i], with trailing zeros removed unless it is identically zero.", "quantifier": "all point lists with distinct non-zero entries, all value lists over any coefficient module", "why_tests_cant": "all inputs", "anchors": ["secret-sharing/src/utils.rs::lagrange_interpolate"]}
{"id": "C13", "title": "partial_xgcd terminates with the Bezout and degree relations", "statement": "When (n+k)/2 >= 1, partial_xgcd(a,b) terminates without dividing by zero and returns (r,s) with r = s*b mod a and deg r < (n+k)/2; with stop bound 0 it never reaches a result.", "quantifier": "all polynomials a, b, all n, k", "why_tests_cant": "termination for all inputs", "anchors": ["secret-sharing/src/gao.rs::partial_xgcd"]}
{"id": "C14", "title": "Gao decoder corrects errors up to half the distance", "statement": "If a received word of length n = 4l differs from the evaluations of a polynomial of degree < k on the share domain in at most (n-k)/2 positions, decode_to_message(received, n, k) returns exactly that polynomial and does not panic.", "quantifier": "all fields, all l, all k<=n, all messages, all error patterns of weight <= (n-k)/2", "why_tests_cant": "one error pattern in one field is tested; there are exponentially many", "anchors": ["secret-sharing/src/gao.rs::decode_to_message"]}
{"id": "C15", "title": "Whatever the Gao decoder returns is close to the received word", "statement": "If decode_to_message returns a polynomial at all, it agrees with the received word in at least (n+k)/2 positions; otherwise it panics.", "quantifier": "all received words, all k>=1", "why_tests_cant": "words outside the decoding radius are never tested", "anchors": ["secret-sharing/src/gao.rs::decode_to_message"]}
{"id": "C16", "title": "transpose really transposes", "statement": "For a rectangular non-empty matrix with at least one column, transpose(m)[c][r] = m[r][c], and transposing twice is the identity; it panics on an empty matrix, on an empty first row, or when some row is shorter than the first.", "quantifier": "all matrices", "why_tests_cant": "all shapes, ragged ones included (a malicious client controls its row length)", "anchors": ["dist-primitives/src/utils/pack.rs::transpose"]}
{"id": "C17", "title": "pack_vec packs chunk by chunk", "statement": "For a vector whose length is a multiple of l, pack_vec returns one share vector per chunk of l secrets and unpacking every row and concatenating returns the vector.", "quantifier": "all vectors, all l, all randomness", "why_tests_cant": "all inputs", "anchors": ["dist-primitives/src/utils/pack.rs::pack_vec"]}
{"id": "C18", "title": "fft_in_place_rearrange is the bit-reversal permutation", "statement": "For every vector of length 2^k the result holds at position i the element formerly at the k-bit reversal of i; applying it twice is the identity; the loop terminates and never indexes out of bounds.", "quantifier": "all k, all vectors", "why_tests_cant": "all lengths", "anchors": ["dist-primitives/src/dfft/mod.rs::fft_in_place_rearrange"]}
{"id": "C19", "title": "Distributed FFT computes the FFT", "statement": "If the parties hold packed shares of the bit-reversed, strided coefficient vector of a polynomial over a domain of size m (m a multiple of l, both powers of two) and masks sampled for this transform, then after d_fft (rearrange=false) unpacking the outputs chunk by chunk gives exactly domain.fft(coefficients).", "quantifier": "all l, m, coefficient vectors, share randomness, masks, king randomness", "why_tests_cant": "one size with l=2,m=8 is tested", "anchors": ["dist-primitives/src/dfft/mod.rs::d_fft", "dist-primitives/src/dfft/mod.rs::fft1_in_place", "dist-primitives/src/dfft/mod.rs::fft2_in_place", "dist-primitives/src/dfft/mod.rs::fft2_with_rearrange"]}
{"id": "C20", "title": "Distributed inverse FFT computes the inverse FFT scaled on a coset", "statement": "Likewise d_ifft yields shares of domain.ifft(evals) with coefficient i multiplied by g^i.", "quantifier": "all l, m, evaluation vectors, g, randomness, masks", "why_tests_cant": "one size tested", "anchors": ["dist-primitives/src/dfft/mod.rs::d_ifft"]}
{"id": "C21", "title": "Transforms compose", "statement": "Running d_ifft with rearrange=true and g then d_fft gives shares of the evaluations of the original polynomial on the coset g*H (the original evaluations when g=1); a further d_ifft with g^-1 and d_fft returns to the original evaluations.", "quantifier": "all l, m, inputs, g, randomness", "why_tests_cant": "one size tested", "anchors": ["dist-primitives/src/dfft/mod.rs::d_fft", "dist-primitives/src/dfft/mod.rs::d_ifft"]}
{"id": "C22", "title": "Sampled FFT masks cancel", "statement": "For matching parameters (rearrange, g, gen) the masks from FftMask::sample cancel: the unmasked result secrets do not depend on the mask values or on the randomness used to share them. FftMask::zero gives the same result.", "quantifier": "all mask values and randomness", "why_tests_cant": "all masks", "anchors": ["dist-primitives/src/dfft/mod.rs::FftMask"]}
{"id": "C23", "title": "Distributed FFT tolerates a dropout at the king", "statement": "If one non-king message is missing when the king times out, the king's answer still packs the same secrets as with all messages, whichever party is missing and in whatever order the survivors are enumerated.", "quantifier": "all parties, all orders, all inputs", "why_tests_cant": "the lossy test only drops a result at the end, never a message to the king", "anchors": ["dist-primitives/src/dfft/mod.rs::fft2_with_rearrange", "secret-sharing/src/pss.rs::unpack_missing_shares"]}
{"id": "C24", "title": "deg_red turns product shares into fresh shares", "statement": "deg_red on shares of degree up to 4l-2 with masks from DegRedMask::sample outputs shares that plain unpack maps to the same secrets.", "quantifier": "all l, number of packed values, sharings of that degree, masks, king randomness", "why_tests_cant": "one value tested", "anchors": ["dist-primitives/src/utils/deg_red.rs::deg_red", "dist-primitives/src/utils/deg_red.rs::DegRedMask"]}
{"id": "C25", "title": "Distributed MSM computes the MSM", "statement": "d_msm on packed shares of bases and scalars with sampled masks gives each party a share such that unpack/unpack2 returns l copies of the multi-scalar product of the secret bases and scalars; with unequal lengths every build refuses (panic in debug, error in release).", "quantifier": "all l, all lengths, all bases and scalars, all randomness", "why_tests_cant": "example with one size only, never asserted as a unit test", "anchors": ["dist-primitives/src/dmsm/mod.rs::d_msm", "dist-primitives/src/dmsm/mod.rs::MsmMask"]}
{"id": "C26", "title": "Distributed partial products", "statement": "d_pp outputs shares of the running products of num[i]/den[i]; if some denominator is zero the king panics.", "quantifier": "all l, vectors without zero denominators, randomness, masks", "why_tests_cant": "only num=den is exercised, where every product is 1", "anchors": ["dist-primitives/src/dpp/mod.rs::d_pp"]}
{"id": "C27", "title": "The king's view in a distributed FFT is uniformly masked", "statement": "For fixed inputs the map from (mask values, mask randomness) to the polynomials the king reconstructs is a bijection onto all polynomials of degree < 2l per packed position, so the king's view in d_fft/d_ifft on fresh (degree < 2l) shares does not depend on the inputs.", "quantifier": "all inputs, all masks", "why_tests_cant": "distributional", "anchors": ["dist-primitives/src/dfft/mod.rs::fft2_with_rearrange", "dist-primitives/src/dfft/mod.rs::FftMask"]}
{"id": "C28", "title": "The king's view in degree reduction is fully masked", "statement": "The masked shares sent to the king in deg_red/d_msm should hide the product polynomial completely. They do not: masks have degree < 2l, so coefficients 2l..4l-2 of the unmasked product polynomial are visible to the king for every mask.", "quantifier": "all product sharings, all masks", "why_tests_cant": "distributional; correctness tests cannot see it", "anchors": ["dist-primitives/src/utils/deg_red.rs::deg_red", "dist-primitives/src/dmsm/mod.rs::d_msm"]}
{"id": "C29", "title": "R1CS to QAP vectors", "statement": "qap(matrices, z) returns vectors of the domain size with a[i]=<A_i,z>, b[i]=<B_i,z> for constraints, a[nc+j]=z_j for inputs and zero elsewhere, c=a*b on the whole domain; when z satisfies the R1CS, c[i]=<C_i,z>.", "quantifier": "all matrices, assignments, domain sizes", "why_tests_cant": "one circuit is run, nothing asserted", "anchors": ["groth16/src/qap.rs::qap"]}
{"id": "C30", "title": "QAP sharing", "statement": "Party i's PackedQAPShare holds the i-th shares of the strided bit-reversed a, b, c; unpacking across parties recovers the rearranged vectors.", "quantifier": "all QAPs, all l, randomness", "why_tests_cant": "all inputs", "anchors": ["groth16/src/qap.rs::pss"]}
{"id": "C31", "title": "circom_h computes the quotient evaluations", "statement": "With sampled masks, circom_h outputs shares (degree < 2l) whose unpacked concatenation is A(x)B(x)-C(x) at x = w_2m * w_m^i, i=0..m-1, where A,B,C interpolate the QAP vectors on the domain.", "quantifier": "all QAPs, l, m, randomness, masks", "why_tests_cant": "one dummy QAP and one circuit", "anchors": ["groth16/src/ext_wit.rs::circom_h"]}
{"id": "C32", "title": "libsnark_h computes the quotient polynomial", "statement": "With sampled masks, libsnark_h outputs shares whose unpacked concatenation is the coefficient vector of H where A*B - C = H*Z whenever a*b=c on the domain.", "quantifier": "all QAPs, l, m, randomness, masks", "why_tests_cant": "one dummy QAP", "anchors": ["groth16/src/ext_wit.rs::libsnark_h"]}
{"id": "C33", "title": "Proving key packing", "statement": "pack_from_arkworks_proving_key gives n shares; chunk-wise unpacking the share vectors recovers a_query[1..], h_query, l_query, b_g1_query[1..], b_g2_query[1..] (zero padded to a multiple of l, release build) and every share carries the public points unchanged.", "quantifier": "all proving keys with non-empty queries, all l", "why_tests_cant": "test asserts nothing", "anchors": ["groth16/src/proving_key.rs::pack_from_arkworks_proving_key"]}
{"id": "C34", "title": "Distributed A, B, C equal the Groth16 formulas", "statement": "Unpacking the parties' outputs of A/BInG1/BInG2/C::compute yields A = alpha + a0 + sum a_i S_i + r*delta, B likewise, and C = sA + rB - rs*delta + sum ax_i W_i + sum h_i U_i, provided no party's share of r is zero.", "quantifier": "all keys, witnesses, r, s, randomness, masks", "why_tests_cant": "one circuit in an example", "anchors": ["groth16/src/prove.rs::A", "groth16/src/prove.rs::BInG1", "groth16/src/prove.rs::BInG2", "groth16/src/prove.rs::C"]}
{"id": "C35", "title": "The distributed proof verifies", "statement": "For every R1CS instance with satisfying assignment, a Groth16 key generated with the circom reduction and all randomness, the proof assembled from the parties' outputs satisfies the Groth16 verification equation.", "quantifier": "all circuits, witnesses, keys, randomness, masks", "why_tests_cant": "a single circuit and witness", "anchors": ["groth16/examples/sha256.rs::dsha256", "groth16/src/ext_wit.rs::circom_h", "groth16/src/prove.rs::C"]}
{"id": "C36", "title": "BInG1 must not depend on a share of r being zero", "statement": "BInG1::compute should take part in the protocol whatever its share of r is. It does not: a party whose share of r is zero returns the identity without sending, even when r itself is non-zero.", "quantifier": "all shares of r", "why_tests_cant": "probability 1/p per run", "anchors": ["groth16/src/prove.rs::BInG1"]}
{"id": "C37", "title": "Randomisers r, s are hidden from the servers", "statement": "pack should hide r. In the sha256 example r and s are packed as n copies: a debug build panics and a release build gives every party the value r itself.", "quantifier": "all l, all r, all random tapes", "why_tests_cant": "the example only checks the proof verifies", "anchors": ["groth16/examples/sha256.rs::main", "secret-sharing/src/pss.rs::pack"]}
{"id": "C38", "title": "A round delivers every message to the king, in party order, under every schedule", "statement": "When all parties call client_send_or_king_receive on the same stream and no timeout fires, the king obtains exactly the n messages in party order and the clients obtain None, for every interleaving of sends and receives.", "quantifier": "all n, messages, interleavings", "why_tests_cant": "schedules are not controllable in tests", "anchors": ["mpc-net/src/lib.rs::client_send_or_king_receive"]}
{"id": "C39", "title": "Timed-out rounds report exactly who answered", "statement": "If the timeout fires, the king's result contains its own message plus exactly the messages received so far, each attributed to its sender; shares and parties stay aligned for any hash-map order; fewer than threshold decodable answers is an error.", "quantifier": "all subsets of responders, orders, thresholds", "why_tests_cant": "timing dependent", "anchors": ["mpc-net/src/lib.rs::client_send_or_king_receive", "mpc-net/src/ser_net.rs::client_send_or_king_receive_serialized"]}
{"id": "C40", "title": "Too few responders must not produce a wrong result", "statement": "A protocol that continues after a timeout should have enough shares. The threshold passed is t=l while 4l-1 shares are needed: with between l and 4l-2 answers a debug build panics and a release build goes on and can output a wrong value.", "quantifier": "all responder counts", "why_tests_cant": "needs a lossy run in release mode", "anchors": ["mpc-net/src/ser_net.rs::client_send_or_king_receive_serialized", "dist-primitives/src/dmsm/mod.rs::d_msm", "dist-primitives/src/utils/deg_red.rs::deg_red", "secret-sharing/src/pss.rs::lagrange_unpack"]}
{"id": "C41", "title": "King's answers reach the right parties", "statement": "client_receive_or_king_send delivers element i of the king's vector to party i and returns element 0 to the king; a client supplying data or a king supplying none gets BadInput and nothing is sent; unequal lengths give a Protocol error naming the party.", "quantifier": "all n, vectors, schedules", "why_tests_cant": "all inputs and interleavings", "anchors": ["mpc-net/src/lib.rs::client_receive_or_king_send"]}
{"id": "C42", "title": "Malformed messages", "statement": "With all n messages present, one undecodable message makes the whole round fail; after a timeout undecodable messages are dropped and the rest kept. A vector whose encoding is cut short is undecodable; bytes after an encoding are ignored.", "quantifier": "all byte strings, all positions", "why_tests_cant": "adversarial inputs", "anchors": ["mpc-net/src/ser_net.rs::client_send_or_king_receive_serialized"]}
{"id": "C43", "title": "Concurrent rounds on different streams do not interfere", "statement": "Protocols joined with try_join on distinct MultiplexedStreamIDs give the same results under every interleaving as when run one after another; no deadlock.", "quantifier": "all schedules, all programs using disjoint stream ids in concurrent branches", "why_tests_cant": "interleavings", "anchors": ["groth16/src/ext_wit.rs::libsnark_h", "groth16/src/ext_wit.rs::circom_h", "groth16/src/prove.rs::C", "mpc-net/src/lib.rs::MultiplexedStreamID"]}
{"id": "C44", "title": "Whole protocols are schedule independent and deadlock free", "statement": "For d_fft, d_ifft, deg_red, d_msm, d_pp, circom_h, libsnark_h run by n parties over a reliable network without timeouts: every schedule terminates with every party holding the same, correct output.", "quantifier": "all schedules, inputs, masks, randomness", "why_tests_cant": "interleavings", "anchors": ["dist-primitives/src/dfft/mod.rs::d_fft", "dist-primitives/src/utils/deg_red.rs::deg_red", "dist-primitives/src/dmsm/mod.rs::d_msm", "dist-primitives/src/dpp/mod.rs::d_pp", "groth16/src/ext_wit.rs::circom_h"]}
{"id": "C45", "title": "A late message must not be taken for the next round's", "statement": "After a timed-out round the next round's messages should be the ones used. They are not: a late message stays queued and is consumed as that party's message in the next round on the same stream.", "quantifier": "histories of rounds with timeouts", "why_tests_cant": "needs a late message", "anchors": ["mpc-net/src/lib.rs::client_send_or_king_receive", "mpc-net/src/multi.rs::recv_stream"]}
{"id": "C46", "title": "Frames survive any chunking", "statement": "Messages written with the length-delimited codec (4-byte big-endian length) are decoded to the same sequence however the byte stream is cut; messages over the 8 MiB limit are refused at the sender.", "quantifier": "all message sequences, all chunkings", "why_tests_cant": "exponentially many cuts", "anchors": ["mpc-net/src/multi.rs::wrap_stream"]}
{"id": "C47", "title": "Protocol packets round-trip", "statement": "The packet encoding used by ProdNet decodes to the packet sent, distinct packets never share an encoding, and recv_from returns the payload of a data packet and an error for Syn/SynAck.", "quantifier": "all payloads", "why_tests_cant": "all inputs", "anchors": ["mpc-net/src/prod.rs::ProtocolPacket", "mpc-net/src/prod.rs::recv_packet", "mpc-net/src/prod.rs::send_packet"]}
{"id": "C48", "title": "ProdNet set-up handshake", "statement": "If every peer announces a distinct id in 1..n-1 then under every schedule king and peers complete Syn/SynAck and every constructor returns; a wrong first packet gives a Protocol error.", "quantifier": "all n, schedules, packets", "why_tests_cant": "interleavings", "anchors": ["mpc-net/src/prod.rs::new_from_pre_existing_connection", "mpc-net/src/prod.rs::synchronize"]}
{"id": "C49", "title": "Peer identities are unique at the king", "statement": "The king should end set-up with one connection per party. Ids are taken from the peer unauthenticated: with a duplicate or out-of-range announced id, set-up can still succeed but some party id has no connection and every later receive round is partial.", "quantifier": "all lists of announced ids", "why_tests_cant": "adversarial", "anchors": ["mpc-net/src/prod.rs::new_from_pre_existing_connection"]}
{"id": "C50", "title": "Local test network is a full mesh", "statement": "In new_local_testnet every unordered pair of parties is connected by exactly one TCP connection, numbers of accepts and connects match, and each node ends with streams to all others whatever the order of arrivals.", "quantifier": "all n, all accept orders", "why_tests_cant": "order dependent", "anchors": ["mpc-net/src/multi.rs::connect_to_all"]}
{"id": "C51", "title": "is_init reports readiness", "statement": "is_init should be true after set-up. It is true for ProdNet but false forever for LocalTestNet nodes because the node's own peer entry never has streams.", "quantifier": "all n>=1", "why_tests_cant": "never called in tests", "anchors": ["mpc-net/src/multi.rs::is_init", "mpc-net/src/multi.rs::new_local_testnet"]}
{"id": "C52", "title": "simulate_network_round returns results by party id", "statement": "The vector returned has the result of party i at position i regardless of completion order; the lossy variant returns the same without the last party and labels it with ids 0..n-2.", "quantifier": "all n, completion orders", "why_tests_cant": "order dependent", "anchors": ["mpc-net/src/multi.rs::simulate_network_round", "mpc-net/src/multi.rs::simulate_lossy_network_round"]}
{"id": "C53", "title": "The frame limit bounds the size of the circuit", "statement": "Frames carry at most 8 MiB (8 MiB less 12 bytes of payload in the production network). A transform of a domain of 2^a*l points sends messages of 8+2^a*w bytes (w bytes per field element), a degree reduction of N positions 8+N*w bytes, d_pp 8+2N*w bytes, d_msm one group element whatever the lengths. If the messages fit, d_fft, d_ifft, deg_red, d_pp, d_msm, circom_h, libsnark_h and the whole session of the example behave as on a network without limit, under every schedule; if not, no client ever finishes any of them (d_msm excepted), whatever the schedule and whatever else fails. With elements of 32 bytes the bound is exactly a <= 17, that is domains of at most 2^17*l points.", "quantifier": "for all packing factors, domain sizes, inputs, masks, king's randomness, limits and schedules", "why_tests_cant": "The tests use small domains; that every message of every reachable state stays below the limit, and that nothing else can rescue a client over the limit, are statements about all schedules and all sizes.", "anchors": ["mpc-net/src/multi.rs:26-33", "mpc-net/src/multi.rs:418-428", "mpc-net/src/prod.rs:333-362", "mpc-net/src/ser_net.rs:33-68", "dist-primitives/src/dfft/mod.rs:99-175", "dist-primitives/src/utils/deg_red.rs:80-126", "dist-primitives/src/dpp/mod.rs:20-90", "groth16/src/ext_wit.rs:14-181", "groth16/examples/sha256.rs:32-129"]}
{"id": "C54", "title": "Joint privacy of packed vectors", "statement": "When a whole vector is packed (pack_vec, pack_from_witness, QAP::pss), every joint view of l distinct parties over all chunks is produced by exactly one choice of all the random values: chunks use independent randomness and nothing about the vector is visible to l parties.", "quantifier": "all parameters with GENERATOR^(4l) != 1, all vectors, all coalitions of l parties, all views, both build modes", "why_tests_cant": "a test sees one random tape; reuse of randomness across chunks still unpacks correctly", "anchors": ["dist-primitives/src/utils/pack.rs::pack_vec", "groth16/src/qap.rs::QAP::pss", "groth16/examples/sha256.rs::pack_from_witness"]}
{"id": "C55", "title": "The king's answers are fresh sharings", "statement": "In d_fft, d_ifft and deg_red the outputs of any l parties are, with inputs and masks fixed, in bijection with the king's random values (under every schedule), so the answers say nothing about the result.", "quantifier": "all inputs, masks, coalitions of l parties, views, schedules", "why_tests_cant": "constant randomness at the king passes every functional test", "anchors": ["dist-primitives/src/dfft/mod.rs::fft2_with_rearrange", "dist-primitives/src/utils/deg_red.rs::deg_red"]}
{"id": "C56", "title": "Shares made with a known tape reveal the secrets", "statement": "For every fixed random tape the shares of any l parties determine the secrets. QAP::pss draws its tape from ark_std::test_rng() (fixed seed), so any l servers can tell apart assignments that differ on a row of A or B or on an instance variable.", "quantifier": "all tapes, vectors, circuits, assignments, coalitions of l parties", "why_tests_cant": "a confidentiality failure has no functional symptom", "anchors": ["groth16/src/qap.rs::QAP::pss", "secret-sharing/src/pss.rs::PackedSharingParams::pack"]}
{"id": "C57", "title": "The dealing hides the witness from l servers", "statement": "For any two assignments of the same circuit and any r, s, r', s' there are fixed values whose addition to the client's random tape turns one dealing into the other in the eyes of l servers (l copies of r and s packed, tape uniform). It fails for the example as written: with n copies every server is given r and s themselves.", "quantifier": "all circuits, assignments, keys, r, s, coalitions of l servers, tapes, both build modes", "why_tests_cant": "quantifies over pairs of witnesses and all tapes", "anchors": ["groth16/examples/sha256.rs::main", "groth16/examples/sha256.rs::pack_from_witness", "groth16/src/qap.rs::QAP::pss"]}
{"id": "C58", "title": "What l servers see of a whole proving session does not depend on the assignment", "statement": "For d_fft, d_ifft, deg_red, d_msm, for circom_h and libsnark_h, and for a whole session (dealing by the client, then the server loop with circom_h and the three parts of the proof): for two inputs (two assignments of the same circuit) and any l of the n servers there are values delta such that adding delta to everything the client draws turns a run on the first input into a run on the second one in which every server other than the king is sent the same bytes in every round, the l servers are dealt the same inputs and masks, and end with the same outputs. Since adding delta is a bijection of the random tapes, the joint view of l servers that only receive what the king sends has a distribution that does not depend on the assignment. Recording what a server receives does not change any execution.", "quantifier": "for all fields, packing factors l = 2^b, circuits, pairs of assignments, keys of fitting lengths, sets of l servers, random tapes of client and king, and all schedules of the network", "why_tests_cant": "it relates pairs of executions and all random tapes; a test sees single runs and cannot tell whether the views of different inputs have the same distribution", "anchors": ["dist-primitives/src/dfft/mod.rs::d_fft", "dist-primitives/src/dfft/mod.rs::d_ifft", "dist-primitives/src/utils/deg_red.rs::deg_red", "dist-primitives/src/dmsm/mod.rs::d_msm", "groth16/src/ext_wit.rs::circom_h", "groth16/src/ext_wit.rs::libsnark_h", "groth16/examples/sha256.rs::dsha256", "groth16/examples/sha256.rs::main"]}
{"id": "C59", "title": "The opened proof is exactly the Groth16 proof of the paper", "statement": "For a satisfying assignment there is a quotient polynomial h, with (sum z_k a_k)(sum z_k b_k) - sum z_k c_k = h (X^m - 1), such that every session opens to exactly A = (alpha + sum z_k a_k(tau) + r delta) g1, B = (beta + sum z_k b_k(tau) + s delta) g2, C = ((sum over private k of z_k (beta a_k + alpha b_k + c_k)(tau) + h(tau)(tau^m - 1))/delta + s A + r B - r s delta) g1. In particular the masks, the random values of client and king, the packing and the schedule leave no trace in the proof.", "quantifier": "all circuits, satisfying assignments, keys of the circom set-up, r, s, random tapes, packing factors, schedules; the example as written in release builds without conditions", "why_tests_cant": "a test checks that single proofs are accepted by the verifier; a proof that verifies need not be distributed like an honest proof, nor be independent of the masks", "anchors": ["groth16/src/prove.rs::A::compute", "groth16/src/prove.rs::BInG2::compute", "groth16/src/prove.rs::C::compute", "groth16/src/ext_wit.rs::circom_h", "groth16/examples/sha256.rs::dsha256", "groth16/examples/sha256.rs::main"]}
{"id": "C60", "title": "A session is zero knowledge towards l servers together with the verifier", "statement": "For two satisfying assignments with the same public inputs and any l servers there are values such that adding them to everything the client draws (r and s included) turns a session on the first assignment into one on the second in which every server other than the king is sent the same bytes, the l servers are dealt the same inputs and end with the same outputs, and the client opens the same proof.", "quantifier": "all circuits, pairs of satisfying assignments with equal public part, coalitions of l servers, random tapes, schedules", "why_tests_cant": "relates pairs of executions on different witnesses and all random tapes", "anchors": ["groth16/src/prove.rs::A::compute", "groth16/src/prove.rs::BInG2::compute", "groth16/src/prove.rs::C::compute", "groth16/src/ext_wit.rs::circom_h", "groth16/examples/sha256.rs::dsha256", "groth16/examples/sha256.rs::main"]}
{"id": "C61", "title": "What the king and l - 1 other servers see of one protocol, exactly", "statement": "d_fft and d_ifft: for any two vectors of which l parties (the king may be one of them) hold the same shares, shifting the tape of the masks turns a run on the first vector into a run on the second in which every party, the king included, receives the same bytes and the l parties hold the same masks and end with the same outputs. Shares with up to 4l - 1 coefficients (d_fft and d_ifft of products, deg_red) and d_msm: this holds exactly when the shares (for d_msm: the parties' local sums) of the two inputs differ by polynomials with 2l coefficients; if they do not, the king receives different bytes whatever masks are drawn. So for fixed upper coefficients any secrets are possible, and the upper coefficients leak.", "quantifier": "all fields, l = 2^b, vectors, sharings, sets of l parties, random tapes of the masks and of the king, schedules", "why_tests_cant": "relates pairs of executions on different inputs and all random tapes; what a king could infer is not visible in any single run", "anchors": ["dist-primitives/src/dfft/mod.rs::d_fft", "dist-primitives/src/dfft/mod.rs::d_ifft", "dist-primitives/src/utils/deg_red.rs::deg_red", "dist-primitives/src/dmsm/mod.rs::d_msm"]}
{"id": "C62", "title": "What the king and l - 1 other servers see of circom_h and libsnark_h", "statement": "For shares of two programs (a, b, c) and (a', b', c') of which l parties (the king may be one of them) hold the same shares, there is a change of the random tapes of the six transform masks, each tape by an amount depending on the earlier tapes only and hence a bijection of the tapes, that makes the l parties hold the same masks; the parties then hold shares e and e' of A·B - C and A'·B' - C' before the last step. If e and e' differ by polynomials with 2l coefficients, which is always so when a = a' and b = b', there is a change of the tape of the last mask such that in runs on both programs every party, the king included, receives the same bytes and the l parties end with the same outputs. Conversely, whatever masks are drawn, if the king receives the same bytes in two runs then e and e' differ by polynomials with 2l coefficients: the king learns the upper coefficients of A·B - C.", "quantifier": "all fields, l = 2^b, domains, pairs of programs and sharings, sets of l parties, random tapes, schedules", "why_tests_cant": "relates pairs of executions over all random tapes; the tests never compare what the king receives for different witnesses", "anchors": ["groth16/src/ext_wit.rs::circom_h", "groth16/src/ext_wit.rs::libsnark_h", "dist-primitives/src/dfft/mod.rs::d_fft", "dist-primitives/src/dfft/mod.rs::d_ifft", "dist-primitives/src/utils/deg_red.rs::deg_red"]}
{"id": "C63", "title": "The servers compute what the single-machine references of the tests compute", "statement": "For every QAP vectors a, b, c (whether or not a∘b = c, so in particular for unsatisfied circuits), sharing them with QAP::pss, running circom_h (libsnark_h) on all servers and opening the result with transpose and unpack2, or with transpose and unpack, gives exactly the list that circom_ref (libsnark_ref) computes on one machine. For every constraint system and assignment, the opened result of circom_h on the QAP of the assignment is what CircomReduction::witness_map_from_matrices returns.", "quantifier": "all fields, l = 2^b, domain sizes, vectors, constraint systems, assignments, sharing randomness, masks, schedules", "why_tests_cant": "the tests run one size with one fixed seed and a schedule picked by tokio; the references and the protocol agree for all of them only by algebra", "anchors": ["groth16/src/ext_wit.rs::circom_ref", "groth16/src/ext_wit.rs::libsnark_ref", "groth16/src/ext_wit.rs::circom_dummy_ext_witness", "groth16/src/ext_wit.rs::libsnark_dummy_ext_witness", "groth16/src/ext_wit.rs::ext_witness_circom"]}
{"id": "C64", "title": "The example programs of dist-primitives never fail their assertions", "statement": "For every input vector, all randomness and every schedule, the programs d_fft_test, d_pp_test and d_msm_test finish at every party, so the king's assertion that the opened result equals dom.fft(x), the all-ones vector (for d_pp with equal numerators and denominators without zeros) or the multi-scalar multiplication holds. local_dfft_test, which runs fft1 and fft2 on all columns on one machine, returns dom.fft(x) for every x.", "quantifier": "all fields, l = 2^b, domain sizes, vectors, bases, scalars, masks, randomness, schedules", "why_tests_cant": "each example runs one fixed vector 0,1,2,… with a fixed seed on one schedule", "anchors": ["dist-primitives/examples/dfft_test.rs::d_fft_test", "dist-primitives/examples/dpp_test.rs::d_pp_test", "dist-primitives/examples/dmsm_test.rs::d_msm_test", "dist-primitives/examples/local_dfft_test.rs::local_dfft_test"]}
{"id": "C65", "title": "ConstraintDomain holds the groups of order m and 2m, and the local benchmark computes P·Q−W", "statement": "ConstraintDomain::new(m) in a debug build succeeds exactly when m is a power of two and 2m is supported by the field; the two domains are then the subgroups of order m and 2m, without repetition, and element 2i of the second is element i of the first. In a release build it also accepts other m with 2m ≤ 2^TWO_ADICITY. localgroth_test then computes exactly the coefficients of P·Q−W for the interpolating polynomials and never fails when m is a power of two, and panics at its last multi-scalar multiplication when m is not.", "quantifier": "all fields, m, value vectors, points, scalars", "why_tests_cant": "the benchmark runs one size and checks no value", "anchors": ["groth16/src/lib.rs::ConstraintDomain::new", "groth16/examples/local_groth_bench.rs::localgroth_test", "groth16/examples/local_groth_bench.rs::local_dummy_crs"]}
{"id": "C66", "title": "Random proving keys never reuse a draw and add_ids ends with the sum of the ids", "statement": "PackedProvingKeyShare::rand returns vectors of lengths m/l, 2m/l, m/l, m/l, m/l and every entry of every component uses its own draw of the generator. The example add_ids finishes at every party for every schedule and every number of parties, in debug builds as long as the sum of the ids is below 2^32; in debug builds with 92683 or more parties every party panics.", "quantifier": "all numbers of parties, schedules, generators, sizes", "why_tests_cant": "the example is run by hand with four parties on one schedule; rand has no test", "anchors": ["groth16/src/proving_key.rs::PackedProvingKeyShare::rand", "mpc-net/examples/add_ids.rs::main"]}
{"id": "C67", "title": "One cheating server cannot change the result of a debug build", "statement": "In a debug build let one party other than the king run an arbitrary program, let sends and receives fail at any time, and let the king's time-out fire only after all honest parties have been heard. Whenever an honest party finishes d_fft, d_ifft, deg_red, d_msm, d_pp, circom_h, libsnark_h, A, B or C successfully, it has exactly the result of the honest execution; if all honest servers of a proving session finish, the client opens the honest, accepted proof or nothing. A client that runs deg_red on another share than its own makes the king panic. This is false in release builds, for two colluding clients, and when an honest party is late: then any chosen value can be added to any chosen slot of the result unnoticed.", "quantifier": "all programs of the cheating party, schedules, failures, inputs, masks, sizes, fields", "why_tests_cant": "no test has a party that deviates, and the adversary's programs cannot be enumerated", "anchors": ["secret-sharing/src/pss.rs::PackedSharingParams::unpack2", "dist-primitives/src/utils/deg_red.rs::deg_red", "dist-primitives/src/dmsm/mod.rs::d_msm", "dist-primitives/src/dfft/mod.rs::d_fft", "dist-primitives/src/dpp/mod.rs::d_pp", "groth16/src/ext_wit.rs::circom_h", "groth16/src/prove.rs::A::compute", "groth16/examples/sha256.rs::dsha256"]}
{"id": "C68", "title": "d_pp shows its inputs to the king and to nobody else", "statement": "d_pp multiplies its inputs with the constant 1 instead of a random value and does not mask the first round: one function of what reaches the king returns all numerators and denominators, for all shared vectors, masks and random values, and also when a zero denominator makes the king panic. Any l parties other than the king see nothing: for two pairs of vectors there is a shift of the masks and of the king's random values that turns a run on the first pair into a run on the second one with the same masks, messages and outputs of these parties.", "quantifier": "all vectors, share polynomials with at most 4l-1 coefficients, masks, tapes, sets of l parties, schedules, sizes, fields", "why_tests_cant": "privacy is about all tapes and all pairs of inputs; the test only compares the products", "anchors": ["dist-primitives/src/dpp/mod.rs::d_pp", "dist-primitives/src/utils/deg_red.rs::deg_red", "dist-primitives/src/utils/pack.rs::pack_vec", "secret-sharing/src/pss.rs::PackedSharingParams::unpack_missing_shares"]}
{"id": "C69", "title": "The tests of the repository hold for all inputs, sizes and schedules", "statement": "The unit tests of the protocol crates, taken as programs with their inputs, sizes and random values as parameters, succeed for all of them: test_initialize, test_det_packing and test_multiplication of the secret sharing, the Gao decoding test for every message, position and error, pack_unpack_test and pack_unpack2_test, test_deg_red over the simulated lossy network, the four distributed FFT tests for every vector, coset offset and order in which the simulated network collects results, and test_multiplexing for up to 256 parties with the peers listed in any order. Two tests hold only for what they choose: test_packing panics in a debug build for every l >= 4, and test_eval_interpolate fails exactly if the last random coefficient is zero.", "quantifier": "all secrets, vectors, errors, random values, sizes, orders of hash maps, schedules, fields", "why_tests_cant": "each test checks one size and one random choice; the two that are false in general pass for what they choose", "anchors": ["secret-sharing/src/pss.rs::tests", "secret-sharing/src/gao.rs::tests::test_error_correction", "dist-primitives/src/dmsm/mod.rs::tests", "dist-primitives/src/utils/deg_red.rs::tests::test_deg_red", "dist-primitives/src/dfft/mod.rs::tests", "mpc-net/src/multi.rs::tests::test_multiplexing"]}
{"id": "C70", "title": "Exactly what more than l shares show of the packed secrets", "statement": "For s <= 2l distinct parties and any two vectors of l secrets, their shares from pack can be equal if and only if the difference of the vectors is, at the secret points, the values of a polynomial with 2l - s coefficients multiplied with the s linear factors of the parties' points; if so, every choice of random values for one vector has a matching choice for the other. Hence l + m parties always distinguish two different vectors of secrets that differ in at most m slots (so l + 1 parties who know all but one secret know the last), and never learn more: for any l - m - 1 slots there is another vector, equal in exactly these slots and different in all others, that looks the same to them.", "quantifier": "all secrets, random values, sets of parties, packing factors, vector spaces and fields whose generator does not have an order dividing 4l", "why_tests_cant": "a test never asks what a set of parties learns; the bound between hidden and visible depends on every choice of random values", "anchors": ["secret-sharing/src/pss.rs::PackedSharingParams::pack", "secret-sharing/src/pss.rs::PackedSharingParams::new"]}
{"id": "C71", "title": "A server that falls silent does not stop the others", "statement": "Let some clients stop for ever at any moment (their connections stay open, what they sent is delivered, and the king's time-out fires when everybody that it still waits for has stopped). On shares with d coefficients d_fft, d_ifft and deg_red then end in every execution, and every other party gets the result of the execution without silent parties, if at most 4l-d parties fall silent (release builds) or at most one (debug builds); d_pp on dealt shares in release builds with up to 2l silent parties; d_msm, circom_h, libsnark_h, A, C and a whole proving session with one silent party in all builds, and the shares of the others open to the verifying proof. False beyond that: in debug builds the king panics in deg_red with two and in d_pp already with one silent party, and in all builds the king's threshold stops deg_red with more than 3l silent parties, while all others wait for ever.", "quantifier": "all sets of silent parties, all moments at which they stop, all schedules and time-outs, all inputs, masks, sizes and fields", "why_tests_cant": "the tests of the protocols use a network on which nobody stops; the moments at which parties can stop and the order of events are unbounded in number", "anchors": ["mpc-net/src/lib.rs::MpcNet::client_send_or_king_receive", "mpc-net/src/ser_net.rs::MpcSerNet::client_send_or_king_receive_serialized", "dist-primitives/src/utils/deg_red.rs::deg_red", "dist-primitives/src/dfft/mod.rs::d_fft", "dist-primitives/src/dmsm/mod.rs::d_msm", "dist-primitives/src/dpp/mod.rs::d_pp", "groth16/src/ext_wit.rs::circom_h", "secret-sharing/src/pss.rs::PackedSharingParams::unpack_missing_shares"]}
{"id": "C72", "title": "How many messages a protocol costs, and that nobody finishes without the king", "statement": "On any input, correct or not, with any programs at the other parties and on any network, a party that runs one of the protocols exchanges messages only with the king (the king: with the clients), never more than a fixed number per stream, and a client that succeeds has sent to the king and taken from it exactly that number: 1 in d_fft, d_ifft, deg_red, d_msm, A and B, 2 in d_pp and C, 7 in circom_h and libsnark_h (3, 2, 2 on the three streams), and 12 in a whole proving session (7, 3, 2), independent of the circuit and of the number of servers; a party whose share of r is zero takes part in one round less. Hence a client cannot succeed before the king has sent it a message for every round, so no client ever succeeds when the king is down or stops early, or when the king's share of r is zero and its own is not; and a completed session of n servers costs exactly 24(n-1) messages.", "quantifier": "all inputs, masks, random values, numbers of parties, programs of the other parties, schedules, failures and time-outs", "why_tests_cant": "tests run honest parties on a few inputs and count nothing; that a party cannot finish is a statement about all executions", "anchors": ["dist-primitives/src/dfft/mod.rs::d_fft", "dist-primitives/src/utils/deg_red.rs::deg_red", "dist-primitives/src/dmsm/mod.rs::d_msm", "dist-primitives/src/dpp/mod.rs::d_pp", "groth16/src/ext_wit.rs::circom_h", "groth16/src/prove.rs::BInG1::compute", "groth16/examples/sha256.rs::dsha256", "mpc-net/src/lib.rs::MpcNet::client_receive_or_king_send"]}
{"id": "C73", "title": "The multi-scalar multiplication benchmarks finish only because all parties draw the same numbers", "statement": "In dmsm_bench every party fills its share vectors from a test_rng of its own, so the vectors of all parties are equal. For all draws, all sizes that the field supports, in debug and release builds and under every schedule every party finishes every size, and its result is l times the sum of the products (not a sharing of a multi-scalar multiplication of m packed values). If the parties drew different numbers, the king of a debug build would panic in every execution while all others wait, unless the sum of w^i times the local product of party i is zero. msm_bench never fails and computes the sums of the products.", "quantifier": "all draws, lists of sizes, packing factors, groups and schedules", "why_tests_cant": "the benchmark checks no result and always uses the same numbers", "anchors": ["dist-primitives/examples/dmsm_bench.rs::d_msm_test", "dist-primitives/examples/dmsm_bench.rs::main", "dist-primitives/examples/msm_bench.rs::msm_test"]}
{"id": "C74", "title": "Who knows one factor of a product learns the other from deg_red", "statement": "When deg_red is run on the local products of shares of two packed vectors x and y, the king and l-1 other servers (any l servers together with the king's transcript) that know x learn all of y: one fixed function of the bytes the king is sent, of x and of the shares these l servers hold returns every slot of y, whatever the masks, the random values and the schedule, in every position in which the sharing polynomial of x has its full degree 2l-1. Of the random tapes of pack at most one in |F| gives a smaller degree. Sharing hides from l servers and the masks are as large as the secrets, but the masks have degree below 2l, so dividing the polynomial the king interpolates by the known factor gives the other factor up to a constant.", "quantifier": "all vectors, sharings, masks, tapes, packing factors, coalitions of l servers and schedules", "why_tests_cant": "the leak is in the transcript of an honest and correct run; tests look at results only", "anchors": ["dist-primitives/src/utils/deg_red.rs::deg_red", "dist-primitives/src/utils/deg_red.rs::DegRedMask::sample", "secret-sharing/src/pss.rs::PackedSharingParams::pack"]}
{"id": "C75", "title": "Who knows the a vector of a program learns the b vector from circom_h", "statement": "The king and l-1 other servers (any l servers together with the king's transcript) that know the vector a of the constraint system's values learn all of b from circom_h: one fixed function of the bytes the king is sent, of a and of the shares these l servers hold of the two transformed vectors before deg_red returns b, whatever the masks, random values and schedule, whenever the shares of the transformed a have full degree 2l-1 in every position. Of the tables of values the client draws to pack one mask, at most m/l in |F| violate that. For libsnark_h the same information is there: runs with the same a in which the king is sent the same bytes and l servers hold the same shares have the same b.", "quantifier": "all programs, sharings, masks, tapes, domain sizes, packing factors, coalitions of l servers and schedules", "why_tests_cant": "the leak is in the transcript of an honest and correct run; tests look at results only", "anchors": ["groth16/src/ext_wit.rs::circom_h", "groth16/src/ext_wit.rs::libsnark_h", "dist-primitives/src/utils/deg_red.rs::deg_red", "dist-primitives/src/utils/deg_red.rs::DegRedMask::sample", "dist-primitives/src/dfft/mod.rs::FftMask::sample"]}
{"id": "C76", "title": "Zero knowledge ends where the king takes part: the prover's multi-scalar multiplications open to the king and l-1 others", "statement": "The proving key is packed with det_pack, which pads with zeros, while the masks of d_msm have 2l coefficients. Hence one fixed function of the bytes that the king is sent and of what any l servers are dealt returns, after every session, the sum of the assignment over the a query, over the b query in the second group and over the private part of the key: the points that r and s are to blind. In a single d_msm with such bases it returns the sum of the products in every slot and the local sum of every party, and no more: the king can be sent the same bytes for two vectors of scalars of which the l servers hold the same shares just when all local sums agree. So two assignments for which one of these sums differs never look the same to a coalition of l servers including the king, whatever r, s and the random tapes, although without the king they can (C60).", "quantifier": "all circuits, assignments, keys, r, s, numbers of copies, tapes of client and king, packing factors, coalitions of l servers and schedules", "why_tests_cant": "the leak is in the transcript of an honest and correct run; tests look at results only", "anchors": ["dist-primitives/src/dmsm/mod.rs::d_msm", "dist-primitives/src/dmsm/mod.rs::MsmMask::sample", "secret-sharing/src/pss.rs::PackedSharingParams::det_pack", "groth16/src/proving_key.rs::PackedProvingKeyShare::pack_from_arkworks_proving_key", "groth16/examples/sha256.rs::dsha256"]}
{"id": "C77", "title": "One message per stream is all that is ever in transit, and no stream lock is contended", "statement": "Under every schedule of a reliable network, in d_fft, d_ifft, deg_red, d_msm, d_pp, circom_h, libsnark_h and a whole proving session, for every input of every party (also malformed ones), at most one message is in transit on any stream between two parties, both directions taken together. Hence these protocols end with the same results when a stream holds a single message and a send to a full stream has to wait; a proof is made and verifies on such a network. On no network, whatever times out or fails, do two concurrent branches of a party wait for the same stream, so the mutex around it is never contended, although a receive keeps it while it waits. Both need the code as it is: two d_msm joined on one stream would compete from the start, and with time-outs of the king no finite buffer suffices: the messages of arbitrarily many rounds pile up.", "quantifier": "all schedules, party numbers, inputs, masks, randomness, build modes; for contention all networks", "why_tests_cant": "tests run over in-memory duplex pipes of fixed size and see a few schedules; back-pressure deadlocks need particular ones", "anchors": ["mpc-net/src/multi.rs::send_stream", "mpc-net/src/multi.rs::recv_stream", "mpc-net/src/lib.rs::client_send_or_king_receive", "mpc-net/src/lib.rs::client_receive_or_king_send", "groth16/src/ext_wit.rs::circom_h", "groth16/src/prove.rs::compute"]}
{"id": "C78", "title": "The king changes results as it likes, and no server notices", "statement": "Whatever the king answers to whatever it is sent, every other party of d_msm, deg_red and the transforms takes the answer, adds its mask and finishes successfully, in debug builds too. A king who adds a value to its answer in d_msm leaves the servers with regular shares of the sum plus that value. In a proving session a king who adds points to its five answers makes the client open exactly the honest proof with Δa added to A, Δb to B and s·Δa + r·Δb1 + Δw + Δu to C, without knowing r or s; the verifier accepts it just when e(A,Δb) + e(Δa,B) + e(Δa,Δb) = e(s·Δa + r·Δb1 + Δw + Δu, δ). So the king can always make the client open a rejected proof of a correct assignment. The robustness of C67 excludes the king, and has to.", "quantifier": "all answers of the king, shares, masks, inputs, circuits, keys, randomness, schedules, build modes, sizes", "why_tests_cant": "in every test the king follows the protocol", "anchors": ["dist-primitives/src/dmsm/mod.rs::d_msm", "dist-primitives/src/utils/deg_red.rs::deg_red", "dist-primitives/src/dfft/mod.rs::fft2_with_rearrange", "groth16/src/prove.rs::A::compute", "groth16/src/prove.rs::C::compute", "groth16/examples/sha256.rs::dsha256"]}
{"id": "C79", "title": "A dishonest king reads the inputs from the last step of circom_h", "statement": "Coefficient 4l-1 of what the king is sent in the last step of circom_h is zero when everybody is honest, and the masks do not touch it. A king who adds suitable values to its answers in two of the transforms gets in every position the value of any slot of the transformed a or b vector in that coefficient, exactly, whatever the masks and the randomness. It needs no other party, every server finishes successfully, and after l runs on the same b vector it knows that vector. If it adds other values the result stays right: every server ends with its share of the values of A·B - C on the coset, and the king together with as many others that l parties are known learns in every position a sum of the l values of the b vector with weights that are not zero; for l = 1 the king alone learns the whole b vector this way. A passive coalition of l parties learns nothing of these values (C58, C62).", "quantifier": "all programs, shares, masks, randomness, schedules, build modes of the servers, sizes, choices of slots", "why_tests_cant": "in every test the king follows the protocol, and no test looks at what the king could compute", "anchors": ["groth16/src/ext_wit.rs::circom_h", "dist-primitives/src/dfft/mod.rs::d_fft", "dist-primitives/src/utils/deg_red.rs::deg_red", "secret-sharing/src/pss.rs::unpack2"]}
{"id": "C80", "title": "The fields of the curves in use meet every condition on the parameters", "statement": "ark_bn254::Fr and ark_bls12_377::Fr, with the constants arkworks gives them, are prime fields whose GENERATOR generates the multiplicative group and whose TWO_ADIC_ROOT_OF_UNITY is a primitive root of unity of order 2^28 and 2^47. PackedSharingParams::new accepts l = 2^b exactly for b <= 26 and b <= 45; the coset offset lies outside every subgroup of two-power order, as privacy and libsnark_h need. Hence, over these fields, for every satisfied constraint system of at most 2^27 (2^46) rows and every accepted l up to its size, every set-up, randomness and schedule, the servers of the example end with a proof that verifies: always in the release build of the example as written, and with l copies of r for all but 4l in |F| choices of the dealer. Over BN254 the frames carry this exactly up to 2^17·l points of the domain.", "quantifier": "all packing factors, constraint systems, assignments, set-ups, randomness, schedules, over the two fields", "why_tests_cant": "the tests run fixed small circuits with l = 2; whether the constants of the field have the orders the proofs rely on, and which sizes are accepted, cannot be sampled", "anchors": ["groth16/examples/sha256.rs::main", "secret-sharing/src/pss.rs::PackedSharingParams::new", "groth16/src/qap.rs::qap", "mpc-net/src/multi.rs::wrap_stream"]}
{"id": "C81", "title": "The protocols on byte streams with reads of any size", "statement": "A protocol that always succeeds when the network carries whole messages of at most 8 MiB (8 MiB less 12 bytes on the production network) always succeeds with the same results when messages are length-prefixed bytes on streams that the receiver's Framed reads in pieces of any size: for every schedule and all pieces the execution ends, no frame is misread, no party fails. A party that cannot finish within the limit of messages does not finish on bytes either. Hence over BN254 the servers of the example end on the byte streams of either network with a proof that verifies, for every satisfied constraint system of at most 2^17·l rows, and no client ever finishes beyond that. The reads are those of Framed::poll_next.", "quantifier": "all protocols, schedules, splittings of the byte streams; all constraint systems, assignments, set-ups and randomness for the corollary", "why_tests_cant": "the splitting of TCP reads and the interleaving with the protocol cannot be enumerated; local tests see one of them", "anchors": ["mpc-net/src/multi.rs::send_stream", "mpc-net/src/multi.rs::recv_stream", "mpc-net/src/multi.rs::wrap_stream", "mpc-net/src/prod.rs::send_packet", "mpc-net/src/prod.rs::recv_packet", "groth16/examples/sha256.rs::main"]}
{"id": "C82", "title": "Protocols over the production network, from the connections on", "statement": "A protocol of a king and its clients that always succeeds when every message goes to the party with the id it names always succeeds, with the same results, when every node first runs the set-up of the production network and then the protocol through its table of peers: for every order in which the peers connect (every assignment of the ids 1..n-1 to the connections), every iteration order of the king's hash map and every schedule, in which some nodes may already run the protocol while others are still in set-up. The node that announced id i ends with the result of party i. All protocols of the repository are of this kind; hence add_ids ends with the sum of the ids at every node, and the session of the example ends with a proof that verifies. Clients are not connected to each other: a send or receive naming another client fails at once.", "quantifier": "all protocols of a king and its clients, numbers of parties below 2^32, orders of connection, hash map orders, schedules", "why_tests_cant": "the tests connect a few peers in whatever order the runtime happens to produce; orders times schedules cannot be enumerated", "anchors": ["mpc-net/src/prod.rs::ProdNet::recv_from", "mpc-net/src/prod.rs::ProdNet::send_to", "mpc-net/src/prod.rs::new_from_pre_existing_connection", "mpc-net/src/prod.rs::synchronize", "mpc-net/src/prod.rs::add_protocol_inner", "mpc-net/examples/add_ids.rs::main"]}
{"id": "C83", "title": "A certificate admits to the network but says nothing about who is who", "statement": "The king of the production network (new_king_tls) waits for as many connections as it has certificates in its store and takes the first ones that arrive, whatever their certificates: it waits exactly while fewer have arrived and all of them were certified, and it fails exactly when one of the first has no certificate of the store. So anybody who can reach the port ends set-up, however many servers have connected before, and the king then never sends anything. Certificates are not bound to ids: whatever certificates the accepted connections have, be it the same one every time, the session depends on the announced ids only, and if every id is announced once it runs to its end with the results of the protocol. Hence the holder of one certificate can take the place of any party: it connects first under that id, and if the true party comes last it is not accepted at all.", "quantifier": "all certificate stores, arrivals at the port, protocols of a king and its clients, assignments of ids, hash map orders, schedules", "why_tests_cant": "the tests connect honest peers with distinct certificates only; the claim is about all arrivals, including those of intruders and strangers", "anchors": ["mpc-net/src/prod.rs::new_king_tls", "mpc-net/src/prod.rs::create_server_mutual_tls_acceptor", "mpc-net/src/prod.rs::new_from_pre_existing_connection"]}
{"id": "C84", "title": "The number of bytes the servers exchange", "statement": "Under every schedule of a reliable network, when a protocol has finished every client has sent the king exactly up bytes of messages and the king every client exactly down bytes, all of them have been taken, and nothing has passed between two clients: (n-1)(up+down) bytes altogether; at no earlier time has more been sent. With w the bytes of a field element and m/l = 2^a: up = down = 8 + 2^a w for d_fft and d_ifft, 8 + N w for deg_red of N positions, one group element for d_msm however long its vectors, 7(8 + 2^a w) for circom_h and libsnark_h; d_pp is asymmetric, up = (8 + 2N w) + (8 + N w) and down = 2(8 + N w). A whole proving session takes 7(8 + 2^a w) plus four elements of G1 and one of G2 in each direction for every server (three of G1 if r is zero in the example as written). The volume does not depend on the witness, the masks, the randomness or the schedule.", "quantifier": "all circuits, witnesses, masks, randomness, packing factors and schedules", "why_tests_cant": "no test counts bytes; the claim is about every schedule and every prefix of an execution", "anchors": ["dist-primitives/src/dfft/mod.rs::fft2_with_rearrange", "dist-primitives/src/dmsm/mod.rs::d_msm", "dist-primitives/src/dpp/mod.rs::d_pp", "dist-primitives/src/utils/deg_red.rs::deg_red", "groth16/src/ext_wit.rs::circom_h", "groth16/examples/sha256.rs::dsha256", "mpc-net/src/ser_net.rs::client_send_or_king_receive_serialized"]}
{"id": "C85", "title": "Circuits with fewer domain points than a packed vector has slots", "statement": "If the domain of a circuit has fewer points than the packing factor l, QAP::pss shares its vectors without a complaint in every build, as empty vectors; FftMask::sample with rearrange panics in every build, so the example's client panics while dealing, with any key, assignment and randomness, before a server has been started. With a key that fits and in a release build, the client gets as far as starting the servers exactly if the domain has at least l points. If servers are nevertheless given the empty shares, d_fft and d_ifft panic at once in a debug build; in a release build the king panics in transpose under every schedule and every client waits for ever. No other kind of failure occurs: dealing fails by a panic or not at all.", "quantifier": "all circuits and domains below l, all keys, assignments, masks, randomness, packing factors and schedules", "why_tests_cant": "the tests and the example use circuits far larger than l; the case is excluded by no check in the code", "anchors": ["groth16/src/qap.rs::pss", "dist-primitives/src/dfft/mod.rs::FftMask::sample", "dist-primitives/src/dfft/mod.rs::fft2_with_rearrange", "dist-primitives/src/utils/pack.rs::transpose", "groth16/examples/sha256.rs::main"]}
{"id": "C86", "title": "A network can be used for one protocol after another", "statement": "When all parties of a protocol have finished successfully nothing is left on any stream, whatever their inputs, masks and parameters and the schedule (d_fft, d_ifft, deg_red, d_msm, d_pp, circom_h, libsnark_h, a whole session). Hence protocols that always succeed on a fresh network always succeed with the same results one after the other on the same streams, without any synchronisation in between, also when the second uses each party's result of the first. A production network set up once serves any number of proofs for circuits of different sizes, and every proof verifies. It does matter that nothing is left: a message left over by one protocol is taken for the next one's.", "quantifier": "all protocols, inputs, numbers of proofs, circuits, keys, orders of connection, hash map orders and schedules", "why_tests_cant": "The interleavings of several protocols on shared streams, with some parties ahead of others, are unboundedly many; a test runs one schedule of a few protocols.", "anchors": ["dist-primitives/src/dfft/mod.rs::d_fft", "dist-primitives/src/dfft/mod.rs::d_ifft", "dist-primitives/src/utils/deg_red.rs::deg_red", "dist-primitives/src/dmsm/mod.rs::d_msm", "dist-primitives/src/dpp/mod.rs::d_pp", "groth16/src/ext_wit.rs::circom_h", "groth16/src/ext_wit.rs::libsnark_h", "groth16/examples/sha256.rs::dsha256", "mpc-net/src/ser_net.rs::MpcSerNet", "mpc-net/src/prod.rs::ProdNet"]}
{"id": "C87", "title": "A mask hides one run only", "statement": "Nothing in the code ties a mask to one run: masks are passed by reference and cloned. If the parties run d_fft, d_ifft, deg_red or d_msm twice with the same sampled masks, on whatever streams and with whatever randomness of the king, the king can compute from the bytes it is sent in the two runs the difference of the two inputs: of the secret vectors, of every party's shares, or of the two products and the local sums of d_msm. The rule by which it computes is one function, the same for all masks and inputs. From two runs of circom_h or libsnark_h with the same masks it computes the differences of the A, B and C vectors, which are the differences of the two witnesses' row values. In contrast what a party is sent when protocols run one after the other is what it is sent in each, and any number of transforms in turn, each with masks of its own, hide their inputs from the king and l - 1 others (or any l parties) as one transform does.", "quantifier": "all fields, l = 2^b, sizes, inputs, shares, masks drawn by sample, streams and tapes; any number of transforms in turn", "why_tests_cant": "The claim is that one decoding function works for all masks and inputs, and on the other side that a bijection of tapes makes all runs look the same; a test runs single masks and cannot quantify over what the king could compute.", "anchors": ["dist-primitives/src/dfft/mod.rs::FftMask", "dist-primitives/src/dfft/mod.rs::d_fft", "dist-primitives/src/dfft/mod.rs::d_ifft", "dist-primitives/src/utils/deg_red.rs::deg_red", "dist-primitives/src/dmsm/mod.rs::d_msm", "groth16/src/ext_wit.rs::circom_h", "groth16/src/ext_wit.rs::libsnark_h", "groth16/examples/sha256.rs::dsha256"]}
{"id": "C88", "title": "The client opens one weighted sum of the servers' answers", "statement": "Whatever the 4l servers hand to the client, each component of the proof that a release build opens is the weighted sum of the servers' values with the weights ω^i(g^n-1)/(n(g-ω^i)), none of which is zero; a debug build opens the same exactly if ∑ ω^i z_i = 0 holds for each of the three components, and panics otherwise. Hence in a release build any one server, and in every build any two, move each component of the opened proof by any amount, after a session in which everybody followed the protocol; the moved proof is accepted exactly if the pairing equation of the difference holds, and both another accepted proof than the one for the client's r and s and a rejected one can be reached.", "quantifier": "all packing factors, fields and groups; all answers of all servers; all pairs of servers (all single servers in a release build), all differences; all circuits, assignments, keys, tapes and schedules of the session", "why_tests_cant": "The example opens the answers of honest servers once. A test with one wrong answer would show that this answer changes this proof, not that every server has a non-zero weight, that the debug check is exactly one equation, or that two servers always pass it.", "anchors": ["groth16/examples/sha256.rs::main", "secret-sharing/src/pss.rs::unpack2"]}
{"id": "C89", "title": "How many round trips a proof takes", "statement": "Time is counted in message delays: a message arrives one delay after it was sent, a party that waits for several messages goes on when the last is there, local computation takes no time. Whenever d_fft, d_ifft, deg_red or d_msm succeeds it takes exactly one round trip to the king (the king is done after one delay, everybody else after two), d_pp takes two, circom_h and libsnark_h take three although they exchange messages seven times (the transforms are run by try_join3 on three streams at the same time), and a proving session takes seven, or six if the servers hold zero shares of r; whatever the inputs, masks, number of parties, schedule and hash map order. Measuring does not change the protocol: every execution with clocks is one without and vice versa.", "quantifier": "all numbers of parties above one, inputs, masks, tapes, streams and schedules with which the protocol succeeds; for sessions all circuits, keys, assignments, r and s", "why_tests_cant": "A test measures wall-clock time on a local machine, where delays are negligible and computation dominates; it cannot show that the number of consecutive message delays is the same for all schedules, sizes and inputs.", "anchors": ["groth16/src/ext_wit.rs::circom_h", "groth16/src/ext_wit.rs::libsnark_h", "dist-primitives/src/dfft/mod.rs::d_fft", "dist-primitives/src/dfft/mod.rs::d_ifft", "dist-primitives/src/utils/deg_red.rs::deg_red", "dist-primitives/src/dmsm/mod.rs::d_msm", "dist-primitives/src/dpp/mod.rs::d_pp", "groth16/src/prove.rs::C::compute", "groth16/examples/sha256.rs::dsha256", "mpc-net/src/lib.rs::client_send_or_king_receive"]}
{"id": "C90", "title": "Who watches only the traffic learns nothing about the inputs", "statement": "Who sees of an execution only who sends a message to whom on which stream in which order, how long it is, and when a party computes, cannot tell two runs of d_fft, d_ifft, deg_red, d_msm, d_pp, circom_h or libsnark_h on inputs of the same size apart: whatever execution of one run is watched, there is an execution of the other that looks exactly the same and in which the same parties have finished, whatever the values, masks, coset, layout and random tapes; even circom_h and libsnark_h look alike, and d_msm hides how many terms are added. The lengths of all messages on every link and stream are given exactly, and the messages themselves do not depend on the schedule or on hash map order. Sessions of two circuits' assignments under the same key look alike as long as no packed share of r is zero; dealt as a release build of the sha256 example deals them, they look alike if and only if r is zero in both or in neither, so the traffic shows whether r is zero.", "quantifier": "all inputs, masks and tapes with which the protocols succeed, all sizes, streams, executions and schedules without network faults; for sessions all satisfying assignments under one key", "why_tests_cant": "A test runs one input under one schedule; indistinguishability compares all executions of two runs with different secrets, and a length that depends on a value shows only on the values that change it.", "anchors": ["dist-primitives/src/dfft/mod.rs::d_fft", "dist-primitives/src/dfft/mod.rs::d_ifft", "dist-primitives/src/utils/deg_red.rs::deg_red", "dist-primitives/src/dmsm/mod.rs::d_msm", "dist-primitives/src/dpp/mod.rs::d_pp", "groth16/src/ext_wit.rs::circom_h", "groth16/src/ext_wit.rs::libsnark_h", "groth16/src/prove.rs::A::compute", "groth16/src/prove.rs::B::compute", "groth16/src/prove.rs::C::compute", "groth16/examples/sha256.rs::dsha256", "mpc-net/src/lib.rs::client_send_or_king_receive", "mpc-net/src/ser_net.rs::client_send_or_king_receive_serialized"]}
{"id": "C91", "title": "The groups of BN254 are as the protocols need them", "statement": "The groups the sha256 example works in, the points of order dividing the modulus of Fr on y² = x³ + 3 over Fq and on y² = x³ + 3/(9+u) over Fq², are vector spaces over Fr in which a scalar acts by repeated addition, have exactly as many elements as Fr, and the generators of ark-bn254 generate them; on G1's curve there are no other points, so that reading a point without testing its order loses nothing. Compressed points take 32 and 64 bytes, differ for different points and are read back whatever follows them. So for every packing factor up to 2^26 d_msm over G1 ends with shares of the sum of the bases, each added to itself as often as its scalar says; the example as written proves every satisfied constraint system of at most 2^27 rows with a proof that verifies under every bilinear map of the two groups, and there is one that is not degenerate; and a session on a domain of 2^a·l points exchanges exactly 7(8+32·2^a)+4·32+64 bytes per server and direction (32 less if r is zero), which the frames of the local network carry exactly when a ≤ 17.", "quantifier": "all bases, scalars, packing factors, constraint systems, assignments, toxic values, tapes and schedules; all points of the curves", "why_tests_cant": "The tests use a few random points; that the group has prime order, that no two points share an encoding and that the sum of products comes out for all points are facts about 2^254 elements.", "anchors": ["groth16/examples/sha256.rs::main", "groth16/examples/sha256.rs::dsha256", "dist-primitives/src/dmsm/mod.rs::d_msm", "mpc-net/src/ser_net.rs::client_send_or_king_receive_serialized", "groth16/src/proving_key.rs::PackedProvingKeyShare"]}
{"id": "C92", "title": "add_ids when the nodes are told different numbers of parties", "statement": "The number of nodes of add_ids is given twice: by the certificates the king is given and by --n-parties of every node. If the king's option is right, it finishes; if it is not, it panics, after it has told the sum to the clients with ids below its number only (to all if its number is too large); the other clients wait for ever. A client that is told the sum finishes if its own option is right and panics otherwise, whatever the others were told. No two different numbers up to 2^32 can be confused through the wrapping of the 32-bit sum.", "quantifier": "all numbers of nodes up to 2^32, all options of all nodes up to 2^32 (in debug builds as long as the sums fit into 32 bits), all schedules", "why_tests_cant": "There is no test of the example; the outcome depends on the options of all nodes together and on which messages have been sent before the king panics.", "anchors": ["mpc-net/examples/add_ids.rs::main", "mpc-net/src/lib.rs::client_receive_or_king_send", "mpc-net/src/ser_net.rs::client_send_or_king_receive_serialized"]}
{"id": "C93", "title": "The groups of BLS12-377 are as the tests, examples and benchmarks need them", "statement": "The groups the d_msm tests, the examples dmsm_test, dmsm_bench, msm_bench and local_groth_bench work in, the points of order dividing the modulus of Fr on y² = x³ + 1 over Fq and on y² = x³ + 1/u over Fq[u]/(u²+5), contain the generators of ark-bls12-377, which have that order; G1 has exactly as many elements as Fr. Other than on BN254 the curve of G1 has more points: (0, 1) is on it and of order three, and the reader of G1 refuses its encoding. Compressed points take 48 and 96 bytes, differ for different points and are read back whatever follows them. So for every packing factor up to 2^45 d_msm ends with shares of the sum of the bases, each added to itself as often as its scalar says, and the assertion of dmsm_test holds; the benchmarks end with l times the sum and with the sum; the protocol proves every satisfied constraint system of at most 2^46 rows over these groups.", "quantifier": "all packing factors the field allows, all bases, scalars, masks as dealt and randomness, all sizes of the benchmarks, all satisfied constraint systems, all schedules", "why_tests_cant": "Tests take random points of the group, so that neither the order of the group nor points outside it are ever looked at, and they run eight parties on one size.", "anchors": ["dist-primitives/src/dmsm/mod.rs::d_msm", "dist-primitives/examples/dmsm_test.rs::d_msm_test", "dist-primitives/examples/dmsm_bench.rs::main", "dist-primitives/examples/msm_bench.rs::main", "groth16/examples/local_groth_bench.rs::main"]}
{"id": "C94", "title": "The tests of the production network hold for every number of peers; its in-memory transport does not cut what was written", "statement": "test_exchange_of_data_sum_all_ids and its variant over channels succeed with any number of peers, whatever the order in which the peers connect and in which the king's table lists them, under every schedule: set-up ends, every node returns the sum of the ids and the assertion on the returned sums holds; and the assertion holds for no other list of sums. The transport of the variant delivers the bytes written, in order and completely, to a reader that each time offers room for all that was written at once; otherwise it panics, as it never hands over a part of it.", "quantifier": "all numbers of peers below 2^32 (in debug builds as long as the sum fits into 32 bits), all orders of connection and of the hash map, all schedules; all sequences of writes and of sizes of read buffers", "why_tests_cant": "The tests run with four peers, one order of connections and messages of a few bytes.", "anchors": ["mpc-net/src/prod.rs::test_exchange_of_data_sum_all_ids", "mpc-net/src/prod.rs::test_exchange_of_data_sum_all_ids2", "mpc-net/src/prod.rs::add_protocol_inner", "mpc-net/src/prod.rs::init_network_channels", "mpc-net/src/prod.rs::ChannelIO"]}
{"id": "C95", "title": "The production network on bytes, from the connections on", "statement": "All nodes of a production network announce their ids, exchange the Syn and SynAck packets of set-up and then the packets of a protocol over the same streams, as length-delimited frames whose bytes arrive in pieces of any size. Every protocol whose messages have at most 8 MiB less 12 bytes and that always succeeds between parties exchanging whole messages always succeeds here, with the same results; in particular the session of the example ends with shares that open to a proof that verifies, for BN254 whenever the domain has at most 2^(17+b) points. Payloads and packets of the handshake are never taken for each other.", "quantifier": "all protocols of a king and its clients (all protocols of the repository are shown to be of this kind), all numbers of peers below 2^32, all orders of connecting and of iterating the hash map, all schedules, all ways of cutting the byte streams into reads", "why_tests_cant": "A test sees one schedule and one cutting of the streams; that a fast peer's first protocol packet never reaches the code that waits for a SynAck, and that no cut of the frames matters, is a statement about all of them.", "anchors": ["mpc-net/src/prod.rs::ProdNet::new_from_pre_existing_connection", "mpc-net/src/prod.rs::ProdNet::synchronize", "mpc-net/src/prod.rs::recv_from", "mpc-net/src/prod.rs::send_to", "mpc-net/src/prod.rs::send_packet", "mpc-net/src/prod.rs::recv_packet", "mpc-net/src/multi.rs::wrap_stream"]}
{"id": "C96", "title": "Another number of servers than the packing scheme has shares", "statement": "The size of the network and the number of shares 4l of the packing scheme are independent settings. (1) With fewer servers, as long as they hold as many shares as the sharing has coefficients and, in a debug build, at most one share is missing, d_fft, d_ifft, deg_red and d_msm always succeed, every server ends with exactly its share of the result, and unpack_missing_shares opens it; d_pp does so in a release build. With exactly one server too few, ext_wit::circom_h, libsnark_h and the whole proving session still succeed and their shares open, with unpack_missing_shares, to a proof that verifies. (2) The client of the example, which calls unpack2 on the shares it got and ignores how many they are, gets that proof only if all three missing shares are zero: otherwise a release build returns a wrong proof (off by a non-zero multiple of the missing shares) and a debug build panics. (3) With more servers than shares, or in a debug build with two or more missing, the king of d_fft, d_ifft, deg_red and d_msm panics in every schedule; the king of d_pp does so in a debug build as soon as one is missing.", "quantifier": "all fields with the needed roots, all packing factors 2^b, all inputs, masks and tapes, all numbers of servers, all schedules", "why_tests_cant": "Every test of the repository creates as many parties as shares; the behaviour with another number is a statement about every share vector and every schedule and depends on which of the decoders each caller uses.", "anchors": ["secret-sharing/src/pss.rs::PackedSharingParams::unpack_missing_shares", "secret-sharing/src/pss.rs::PackedSharingParams::unpack2", "dist-primitives/src/dfft/mod.rs::fft2_with_rearrange", "dist-primitives/src/utils/deg_red.rs::deg_red", "dist-primitives/src/dmsm/mod.rs::d_msm", "dist-primitives/src/dpp/mod.rs::d_pp", "groth16/src/ext_wit.rs::circom_h", "groth16/examples/sha256.rs::main"]}
{"id": "C97", "title": "For which random choices a proving session works, and how often", "statement": "A proving session whose client packs l copies of r works (all servers always end with shares that open to a proof that verifies) if and only if either all shares of r or none of them is zero; otherwise no execution on a reliable network lets all servers end with an answer. Counted over the random values drawn for the sharing of r, at most 4l in |F| of the choices are bad, for every r, and for every r other than zero at least one in |F|: the fault of the early return of BInG1 is rare but real in every field. For BN254 this is between 1 in 2^254 and 4l in 2^253.", "quantifier": "all fields with the needed roots, all packing factors 2^b, all satisfied constraint systems, all keys of a set-up, all r, s, tapes and random values of the servers, all schedules; the first part for any number of servers and anything dealt to them", "why_tests_cant": "The bad choices have probability about 2^-250 and are never drawn by a test; that they leave servers waiting in every schedule, and that there are no other bad choices, quantifies over all of them.", "anchors": ["groth16/src/prove.rs::BInG1::compute", "groth16/examples/sha256.rs::dsha256", "groth16/examples/sha256.rs::main", "secret-sharing/src/pss.rs::PackedSharingParams::pack"]}
{"id": "C98", "title": "No computation with usize overflows in a proving session", "statement": "With 64-bit machine integers, where an overflow panics in a debug build and wraps in a release build, everything the library computes is what exact arithmetic gives, as long as the number of parties fits and vectors have at most 2^63 values in all: sharing, reconstruction, the transforms, the partial products, the quadratic arithmetic program, the client's dealing and opening; and every protocol network behaves alike in every execution with every fault. For fields whose two-adicity is at most 62 (BN254, BLS12-377) all that follows from the existence of the domains, and a whole session on machine integers works exactly when all or none of the shares of r are zero. The only unguarded place is PackedSharingParams::new: new(2^63) in a release build succeeds with parameters for zero parties and domains of one element, while a debug build panics.", "quantifier": "all inputs within the size limits, both kinds of build, all fields, packing factors, circuits, keys, tapes, numbers of servers, all executions with all faults", "why_tests_cant": "Overflow needs vectors of 2^63 elements, which no test can allocate; that all intermediate sums and products stay below the limit up to that size is a statement about all sizes.", "anchors": ["secret-sharing/src/pss.rs::PackedSharingParams::new", "secret-sharing/src/pss.rs::PackedSharingParams::lagrange_unpack", "secret-sharing/src/utils.rs::syn_div_in_place", "dist-primitives/src/dfft/mod.rs::fft1_in_place", "dist-primitives/src/dfft/mod.rs::fft2_in_place", "groth16/src/qap.rs::qap", "groth16/src/ext_wit.rs::circom_h", "groth16/examples/sha256.rs::main"]}
{"id": "C99", "title": "Debug and release builds compute the same and can be mixed in one session", "statement": "A build with debug assertions panics or comes to the same result as one without, for every function and every input: parameters, sharing, reconstruction, masks, dealing, opening. For the protocols and the whole proof the parties may be of different builds: as long as nobody has panicked, a network of stricter builds and one of more lenient builds can do exactly the same, whatever goes wrong in the network. So what always yields its results in debug builds does so in every mixture; and a proving session works for any builds of the client and of each server exactly when all or none of the shares of r are zero. Only a client of a debug build needs the vectors of the key to be multiples of l long; debug builds of the servers take the shares of any key.", "quantifier": "all inputs, all assignments of builds to the client and the servers, all packing factors, circuits, keys, tapes, executions and faults", "why_tests_cant": "Tests run one build of everything; that an assertion never changes a result and that 2^(n+1) mixtures of builds interoperate under all schedules is a statement about all of them.", "anchors": ["secret-sharing/src/pss.rs::PackedSharingParams::pack", "secret-sharing/src/pss.rs::PackedSharingParams::unpack2", "secret-sharing/src/pss.rs::PackedSharingParams::lagrange_unpack", "dist-primitives/src/dfft/mod.rs::d_fft", "dist-primitives/src/dmsm/mod.rs::d_msm", "dist-primitives/src/dpp/mod.rs::d_pp", "dist-primitives/src/utils/deg_red.rs::deg_red", "dist-primitives/src/utils/pack.rs::pack_vec", "groth16/src/lib.rs::ConstraintDomain::new", "groth16/examples/sha256.rs::main"]}
{"id": "C100", "title": "Statistical zero knowledge over any number of adaptively chosen sessions", "statement": "Fix any l of the 4l servers. When everything the client draws is uniform and independent, no test of what these servers are dealt and end with, what every server but the king is sent in every round and what proof is opened tells sessions on two satisfying assignments with equal public inputs apart with an advantage above 8l/|F|; and sessions end but for a share of 8l/|F| of the draws. Over k sessions with fresh draws, in which the circuit, the key, both assignments, the king's randomness and the l servers may each time depend on all that was observed before, the advantage is at most 8kl/|F|: below 2^-181 for 2^64 sessions of up to 128 servers in a field as large as that of BN254. At most one thing can be observed of a session with given draws, whatever the schedule.", "quantifier": "all numbers of sessions, all adaptive strategies, all tests (computationally unbounded), all packing factors, circuits, keys, pairs of witnesses, sets of l servers, king's randomness and schedules", "why_tests_cant": "The claim bounds a statistical distance between distributions over all random choices of the client, for unboundedly strong observers and adaptively chosen sequences of sessions.", "anchors": ["groth16/examples/sha256.rs::main", "groth16/src/proving_key.rs::PackedProvingKeyShare::pack_from_arkworks_proving_key", "groth16/src/qap.rs::QAP::pss", "dist-primitives/src/dfft/mod.rs::FftMask::sample", "dist-primitives/src/dmsm/mod.rs::MsmMask::sample", "dist-primitives/src/utils/deg_red.rs::DegRedMask::sample", "secret-sharing/src/pss.rs::PackedSharingParams::pack"]}
{"id": "C101", "title": "What l servers and the verifier see of a session is simulated without the witness", "statement": "Fix any l of the 4l servers. What these servers are dealt and end with, what every server but the king is sent and what proof is opened is, up to an advantage of 8l/|F| for any test, distributed as a session on a blank assignment (one, then zeros) next to a Groth16 proof made by a prover on its own with independent r and s: delegating the proof shows nothing but the proof. Hence there is a simulator that is given the secrets of the set-up, the public inputs and the number of wires, but no witness: it runs a session on the blank assignment and puts next to it a proof with random first two parts and the third solved for; every such proof verifies. k sessions chosen adaptively are simulated with an advantage of at most 8kl/|F|.", "quantifier": "all satisfying assignments, circuits, keys, packing factors, sets of l servers, king's randomness, schedules, numbers of sessions, adaptive strategies and (computationally unbounded) tests", "why_tests_cant": "A simulation statement compares two distributions over all random choices, for all witnesses and all tests; no run shows it.", "anchors": ["groth16/examples/sha256.rs::main", "groth16/examples/sha256.rs::dsha256", "groth16/src/qap.rs::QAP::pss", "groth16/src/prove.rs::A::compute", "groth16/src/prove.rs::BInG1::compute", "groth16/src/prove.rs::C::compute", "secret-sharing/src/pss.rs::PackedSharingParams::pack"]}
{"id": "C102", "title": "With the tape the code uses for the program, l servers tell witnesses apart almost surely", "statement": "QAP::pss draws from ark_std::test_rng(), a fixed sequence. Let everything else the client draws be uniform and let the program be packed with any fixed sequence. Then for any l servers and any two assignments that differ in the value of a row of the first or second matrix (or in the public inputs) there is a test of what is observed of a session that accepts sessions on the first with probability at least 1 - 4l/|F| and never accepts one on the second. So the statistical zero knowledge of C100 and the simulation of C101, which hold when this sequence is drawn as well, fail for the code as it is in every field with more than 12l elements.", "quantifier": "all fixed sequences, pairs of assignments with different row values, packing factors, circuits, keys, sets of l servers, king's randomness and schedules", "why_tests_cant": "The probability of acceptance is over all other random choices of the client; tests neither look at what servers could infer nor at two assignments at once.", "anchors": ["groth16/src/qap.rs::QAP::pss", "groth16/examples/sha256.rs::main", "secret-sharing/src/pss.rs::PackedSharingParams::pack"]}
{"id": "C103", "title": "On BN254 delegated proofs are simulated up to k·l / 2^250, and the code's tape gives witnesses away up to l / 2^251", "statement": "For the groups of BN254 as curves over their fields nothing is left to assume: every point but the one at infinity spans its group, and the coset of the packed secrets avoids the domain of the shares. For every packing factor the parameters allow, every satisfied constraint system of at most 2^27 rows that fills more than half a share, and every set-up, there is a key. What any l servers are dealt and end with, what every server but the king is sent and the proof that is opened, in k sessions chosen adaptively, are up to an advantage of k·l/2^250 the output of a simulator that knows no witness; a session ends but for l/2^251 of the draws. With a fixed sequence for the program, as in QAP::pss, any l servers tell assignments with different row values apart with an advantage of at least 1 - l/2^251.", "quantifier": "all packing factors 2^b, sessions, circuits, satisfying assignments, set-ups, non-zero generators, sets of l servers, histories, king's randomness, fixed sequences and schedules", "why_tests_cant": "The bounds are probabilities over all random choices of the client in a field of 2^254 elements; no run can estimate them.", "anchors": ["groth16/examples/sha256.rs::main", "groth16/src/qap.rs::QAP::pss", "secret-sharing/src/pss.rs::PackedSharingParams::new", "groth16/src/proving_key.rs::PackedProvingKeyShare::pack_from_arkworks_proving_key"]}
{"id": "C104", "title": "The distributed transform splits the multiplications of an FFT among the servers exactly", "statement": "Count every multiplication of field elements in fft1_in_place and fft2_in_place (butterflies and updates of the factor). On shares of length 2^a with l = 2^b, fft1_in_place does exactly a·2^(a-1) multiplications in butterflies and 2^a - 1 for the factors, fft2_in_place on l·2^a values b·2^(a+b-1) and 2^(a+b) - 2^a; the counted code gives what the code gives and panics when it does. So l servers and the king together do as many multiplications in butterflies as one machine, (a+b)·2^(a+b-1), and (2^a - 1)(2^b - 1) more for the factors; d_ifft adds one per entry.", "quantifier": "all packing factors, lengths, inputs and generators (the loop counts also for lengths that are no powers of two)", "why_tests_cant": "Tests look at results, not at the work done; benchmarks measure time for a few sizes and cannot tell a constant factor from the network.", "anchors": ["dist-primitives/src/dfft/mod.rs::fft1_in_place", "dist-primitives/src/dfft/mod.rs::fft2_in_place", "dist-primitives/src/dfft/mod.rs::d_ifft"]}
{"id": "C105", "title": "Even with uniform draws the king and l-1 others learn what r and s are to hide, but for 4l/|F| of the draws", "statement": "Let everything that the client draws be uniform and independent, which the code does not achieve (C102). One function, the same for all circuits, keys and assignments, computes from the bytes that the king is sent and what any l servers are dealt the sums of the assignment over the a query, over the b query in the second group and over the private part of the key, with probability at least 1 - 4l/|F| over the draws (1 - l/2^251 on BN254). So for two assignments with different sums a test accepts sessions on the first with at least that probability and sessions on the second with at most 4l/|F|. The bound of C100 and C101 for servers other than the king does not extend to it.", "quantifier": "all packing factors, circuits, satisfying assignments, keys, sets of l servers (containing the king or not), king's randomness and schedules", "why_tests_cant": "A probability over all choices of the client, and a statement about what could be computed from messages; tests run one session and look at the proof.", "anchors": ["dist-primitives/src/dmsm/mod.rs::d_msm", "dist-primitives/src/dmsm/mod.rs::MsmMask::sample", "groth16/src/proving_key.rs::PackedProvingKeyShare::pack_from_arkworks_proving_key", "secret-sharing/src/pss.rs::PackedSharingParams::det_pack"]}
{"id": "C106", "title": "Whether the proof is accepted tells a cheating king, one server of a release build or two of a debug build whether they have guessed the assignment", "statement": "A server other than the king sees only masked values (C60, C100), but that bound is for servers that run the code. The king of d_msm adds what the servers send with fixed weights, more than 3l of which are not zero. In a release build a server with such a weight, and in a debug build any server with any of at least 3l helpers, can add what they like to each of the five sums by spoiling their masks: the masks cancel and the check of unpack2 in debug builds passes. So they, or a king who answers with a shift, can run a session such that the opened proof verifies if and only if a list z' of their choice has the same sum over the b query (or the a query) of the key as the client's assignment, whatever r, s, the masks and the other choices are. Nothing else is noticed: the session ends on every schedule and all calls return. Who learns whether the proof was accepted learns whether the guess is right, so a client with few possible assignments loses them.", "quantifier": "all packing factors, circuits, satisfying assignments, keys, pairings, guesses z', client choices for which the shares of r are all zero or all nonzero, schedules, both builds", "why_tests_cant": "Tests run honest servers. The claim is about every cheating server and every guess, and about both directions of an equivalence.", "anchors": ["dist-primitives/src/dmsm/mod.rs::d_msm", "secret-sharing/src/pss.rs::PackedSharingParams::unpack2", "groth16/src/prove.rs::A::compute", "groth16/src/prove.rs::C::compute", "groth16/examples/sha256.rs::dsha256"]}
{"id": "C107", "title": "Servers who send wrong values to the king see no more than servers who do not", "statement": "Let any servers add any values they like to the messages they send to an honest king: in the six transforms of circom_h, in its degree reduction and in the five multi-scalar multiplications (in a debug build: values the check of unpack2 does not notice; others end the session). Then for two assignments of the same circuit and any l servers there are values such that adding them to everything the client draws turns a session on the first assignment into one on the second in which, whatever the king draws and on every schedule, every server but the king is sent the same bytes in every round and the l servers are dealt the same inputs and end with the same outputs. The values added may be chosen by what the l servers have of the session: whatever they may have is as likely with one assignment as with the other. So the leak of C106 is in the opened proof only, not in what is sent to the servers.", "quantifier": "all packing factors, circuits, pairs of assignments, keys, sets of l servers, errors and strategies, client and king choices for which the shares of r are all zero or all nonzero, schedules, both builds", "why_tests_cant": "The claim is about the distribution of what any l servers see, for every way of cheating; a test runs one cheat on one assignment.", "anchors": ["dist-primitives/src/dfft/mod.rs::fft2_with_rearrange", "dist-primitives/src/utils/deg_red.rs::deg_red", "dist-primitives/src/dmsm/mod.rs::d_msm", "groth16/src/ext_wit.rs::circom_h", "groth16/examples/sha256.rs::dsha256"]}
{"id": "C108", "title": "Which wrong values a debug build notices does not depend on what is shared", "statement": "Let servers add values of their choice to what they send to the king in d_fft, d_ifft, deg_red or d_msm of a debug build. If in some column the added values, weighted with the powers of the generator of the share domain, do not add up to zero, then under every schedule the king panics and every other server waits for ever, and otherwise every server finishes; which of the two happens is the same for all inputs, masks and random choices, so that the end of a session tells the cheaters nothing. A single wrong server is always noticed, and whatever the others have added there is exactly one value for each server with which nothing is noticed.", "quantifier": "all packing factors, lengths, input shares, masks the client deals, added values, king choices, streams, schedules", "why_tests_cant": "That an abort is independent of the secrets is a statement about all inputs with the same errors at once; a test sees one abort.", "anchors": ["secret-sharing/src/pss.rs::unpack2", "dist-primitives/src/dfft/mod.rs::fft2_with_rearrange", "dist-primitives/src/utils/deg_red.rs::deg_red", "dist-primitives/src/dmsm/mod.rs::d_msm"]}
{"id": "C109", "title": "Servers who cheat by a strategy tell two assignments apart with probability at most 4l/|F|", "statement": "Let l servers other than the king choose by a strategy what to add to everything they send to the king in a session, by what they are dealt or by anything they see as long as the strategy decides the course of the session (in a debug build such that the check does not notice it). If the client draws its randomness uniformly, then whatever test they make of what they are dealt, what they are sent and what they end with, it accepts on two assignments with probabilities that differ by at most 4l/|F|; over k sessions, with circuits, keys, assignments, servers and strategies chosen by what was seen before, by at most k times that. Outside the draws for which a share of r is zero everything the servers can have is exactly as likely with one assignment as with the other, whether the assignments satisfy the circuit or not. Sessions in which the errors are chosen by what was dealt end but for a share of 4l/|F| of the draws.", "quantifier": "all packing factors, circuits, assignments of equal length, keys that fit, sets of l servers without the king, strategies, tests, numbers of sessions, king choices, schedules", "why_tests_cant": "It bounds the difference of two probabilities over all draws of the client for all strategies and all tests.", "anchors": ["groth16/examples/sha256.rs::main", "groth16/examples/sha256.rs::dsha256", "groth16/src/ext_wit.rs::circom_h", "dist-primitives/src/dfft/mod.rs::fft2_with_rearrange", "dist-primitives/src/dmsm/mod.rs::d_msm", "dist-primitives/src/utils/deg_red.rs::deg_red"]}
{"id": "C110", "title": "Servers who choose each wrong message by the answers so far learn no more either", "statement": "A session has twelve messages from every server to the king. Let l servers other than the king choose what all servers add to the j-th message by what they are dealt and by the answers to the first j messages (in a debug build such that the check does not notice it). If no share of r is zero, such a strategy can be played and decides the course of the session: there is exactly one thing the servers can have in the end. Hence sessions against such strategies end but for a share of 4l/|F| of the draws, and whatever test the servers make in the end accepts on two assignments with probabilities that differ by at most 4l/|F|.", "quantifier": "all packing factors, circuits, assignments of equal length, keys that fit, sets of l servers without the king, strategies, tests, king choices, schedules", "why_tests_cant": "Strategies are arbitrary functions of everything received so far; that they have exactly one outcome and that it says next to nothing about the assignment is a statement about all of them and about probabilities over all draws.", "anchors": ["groth16/examples/sha256.rs::main", "groth16/examples/sha256.rs::dsha256", "groth16/src/ext_wit.rs::circom_h", "dist-primitives/src/dfft/mod.rs::fft2_with_rearrange", "dist-primitives/src/dmsm/mod.rs::d_msm", "dist-primitives/src/utils/deg_red.rs::deg_red"]}
{"id": "C111", "title": "On BN254 servers who cheat by the answers so far gain at most k l / 2^251 in k sessions", "statement": "Let l servers other than the king cheat in k sessions with fresh draws of the client. In each session they choose what to add to every message by what they are dealt and by the answers to the messages before (in a debug build such that the check does not notice it); circuit, key, assignments, servers and strategy of a session may depend on all that was seen in the sessions before. Then whatever test they make in the end accepts on two sequences of assignments with probabilities that differ by at most k times 4l/|F|. Over the groups of BN254, with any generators other than the point at infinity and no further assumption, that is at most k l / 2^251, and sessions against such servers end but for a share of l / 2^251 of the draws.", "quantifier": "all packing factors, circuits, assignments of equal length, keys that fit, sets of l servers without the king, strategies, tests, numbers of sessions, king choices, schedules", "why_tests_cant": "The bound is far below anything an experiment can see, and it holds for all strategies over all sessions.", "anchors": ["groth16/examples/sha256.rs::main", "groth16/examples/sha256.rs::dsha256", "groth16/src/ext_wit.rs::circom_h", "dist-primitives/src/dfft/mod.rs::fft2_with_rearrange", "dist-primitives/src/dmsm/mod.rs::d_msm", "dist-primitives/src/utils/deg_red.rs::deg_red"]}
{"id": "C112", "title": "A debug build never finishes a session with errors its check notices, and finishes every other", "statement": "Let the servers of a session, all debug builds, add errors to what they send to the king, where no share of r is zero. If in one of the twelve messages the errors weighted with the powers of the share generator do not add up to zero (in some column of one of the six transforms or of the degree reduction, or in one of the five multi-scalar multiplications), no server ever finishes successfully, whatever the schedule of the messages and of the concurrent transforms. Otherwise all of them finish with the same results under every schedule. Hence if a single server deviates, nobody finishes, or it has in fact sent exactly what it should: a session with one wrong server never ends with anything but the results of the honest session. Whether a session finishes depends on the errors alone: it is the same for all assignments, keys, draws of the client and choices of the king, so making a debug build fail tells nothing about the assignment.", "quantifier": "all packing factors, circuits, assignments, keys that fit and are aligned, draws of the client, errors of all servers, king choices, schedules", "why_tests_cant": "That nobody ever finishes is a statement about all schedules of unbounded length; the twelve messages run in concurrent streams that can be stopped at different points.", "anchors": ["groth16/examples/sha256.rs::dsha256", "groth16/src/ext_wit.rs::circom_h", "groth16/src/prove.rs::C::compute", "secret-sharing/src/pss.rs::unpack_missing_shares", "dist-primitives/src/dfft/mod.rs::fft2_with_rearrange", "dist-primitives/src/dmsm/mod.rs::d_msm", "dist-primitives/src/utils/deg_red.rs::deg_red"]}
{"id": "C113", "title": "Servers who also choose in which order to send their concurrent messages learn no more", "statement": "The twelve messages of a server to the king come in seven rounds, of which three consist of concurrent messages. Let l servers other than the king choose, by what they are dealt and by all answers so far in the order in which they came in, which message to send next and what all servers add to it, where they send every message once and round after round (in a debug build such that the check does not notice it). If no share of r is zero, every such way to cheat can be played and has exactly one outcome. Sessions against such servers end but for a share of 4l/|F| of the draws, and whatever test the servers make after k sessions with fresh draws accepts on two sequences of assignments with probabilities that differ by at most 4kl/|F|; over the groups of BN254 these bounds are l/2^251 and kl/2^251.", "quantifier": "all packing factors, circuits, assignments of equal length, keys that fit, sets of l servers without the king, ways to cheat, tests, numbers of sessions, king choices, schedules", "why_tests_cant": "Holding back one of several concurrent messages until another is answered is a choice of schedule and of content at once; the bound is for all such ways to cheat and far below anything an experiment can see.", "anchors": ["groth16/examples/sha256.rs::dsha256", "groth16/src/ext_wit.rs::circom_h", "groth16/src/prove.rs::C::compute", "dist-primitives/src/dfft/mod.rs::fft2_with_rearrange", "dist-primitives/src/dmsm/mod.rs::d_msm", "dist-primitives/src/utils/deg_red.rs::deg_red"]}
