{
 "claims": [
  {
   "property": "C01",
   "status": "proved",
   "theorems": [
    "ZkSaas.Properties.C01_pack_unpack"
   ],
   "note": "pack/unpack/unpack2 round trip for every power-of-two l, module, tape and build."
  },
  {
   "property": "C02",
   "status": "proved",
   "theorems": [
    "ZkSaas.Properties.C02_det_pack",
    "ZkSaas.Properties.C02_det_pack_short"
   ],
   "note": "det_pack round trip; short vectors panic in debug and are zero padded in release."
  },
  {
   "property": "C03",
   "status": "proved",
   "theorems": [
    "ZkSaas.Properties.C03_linear"
   ],
   "note": "Sum and scalar multiple of packed shares."
  },
  {
   "property": "C04",
   "status": "proved",
   "theorems": [
    "ZkSaas.Properties.C04_multiply"
   ],
   "note": "Product of two packed sharings decodes with unpack2."
  },
  {
   "property": "C05",
   "status": "proved",
   "theorems": [
    "ZkSaas.Properties.C05_lagrange_unpack_product",
    "ZkSaas.Properties.C05_lagrange_unpack_single"
   ],
   "note": "Any >=4l-1 distinct parties (products), any >=2l (single sharing, release)."
  },
  {
   "property": "C06",
   "status": "proved",
   "theorems": [
    "ZkSaas.Properties.C06_unpack_missing",
    "ZkSaas.Properties.C06_full_list_ignores_parties",
    "ZkSaas.Properties.C06_permuted_full_list_is_wrong"
   ],
   "note": "Both decoders; a full list ignores the party order, with a concrete wrong decoding."
  },
  {
   "property": "C07",
   "status": "proved",
   "theorems": [
    "ZkSaas.Properties.C07_privacy",
    "ZkSaas.Properties.C07_needs_disjoint_points"
   ],
   "note": "View of l parties is a bijective image of the randomness when GENERATOR^(4l) != 1; a witness that the condition is needed."
  },
  {
   "property": "C08",
   "status": "proved",
   "theorems": [
    "ZkSaas.Properties.C08_new_ok",
    "ZkSaas.Properties.C08_new_too_large",
    "ZkSaas.Properties.C08_new_debug_not_pow2",
    "ZkSaas.Properties.C08_new_release_not_pow2"
   ],
   "note": "Success, panic beyond two-adicity, debug panic / release inconsistency for non powers of two."
  },
  {
   "property": "C09",
   "status": "proved",
   "theorems": [
    "ZkSaas.Properties.C09_eval"
   ],
   "note": ""
  },
  {
   "property": "C10",
   "status": "proved",
   "theorems": [
    "ZkSaas.Properties.C10_syn_div",
    "ZkSaas.Properties.C10_syn_div_panics"
   ],
   "note": "Quotient, zero padding and exact panic condition."
  },
  {
   "property": "C11",
   "status": "proved",
   "theorems": [
    "ZkSaas.Properties.C11_get_zero_roots"
   ],
   "note": ""
  },
  {
   "property": "C12",
   "status": "proved",
   "theorems": [
    "ZkSaas.Properties.C12_lagrange_interpolate",
    "ZkSaas.Properties.C12_zero_point_panics"
   ],
   "note": "Existence, uniqueness, truncation; zero points panic."
  },
  {
   "property": "C13",
   "status": "proved",
   "theorems": [
    "ZkSaas.Properties.C13_partial_xgcd",
    "ZkSaas.Properties.C13_stop_zero"
   ],
   "note": "Bezout and degree relation for a positive stop bound; no result for stop bound 0 (the all-zero input, where Rust loops forever, is modelled as a panic)."
  },
  {
   "property": "C14",
   "status": "proved",
   "theorems": [
    "ZkSaas.Properties.C14_gao_corrects"
   ],
   "note": ""
  },
  {
   "property": "C15",
   "status": "proved",
   "theorems": [
    "ZkSaas.Properties.C15_gao_close",
    "ZkSaas.Properties.C15_gao_ok_or_panic",
    "ZkSaas.Properties.C15_gao_returns_non_messages"
   ],
   "note": "Closeness; ok-or-panic; plus a theorem that non-messages (degree >= k) are returned unchecked."
  },
  {
   "property": "C16",
   "status": "proved",
   "theorems": [
    "ZkSaas.Properties.C16_transpose_entries",
    "ZkSaas.Properties.C16_transpose_twice",
    "ZkSaas.Properties.C16_transpose_panics",
    "ZkSaas.Properties.C16_transpose_long_rows"
   ],
   "note": "Entries, double transposition, the three panicking shapes, and truncation of over-long rows, for all matrices."
  },
  {
   "property": "C17",
   "status": "proved",
   "theorems": [
    "ZkSaas.Properties.C17_pack_vec_round_trip",
    "ZkSaas.Properties.C17_pack_vec_length"
   ],
   "note": "For all vectors of N chunks, all randomness and both build profiles; a debug build panics on other lengths."
  },
  {
   "property": "C18",
   "status": "proved",
   "theorems": [
    "ZkSaas.Properties.C18_rearrange",
    "ZkSaas.Properties.C18_rearrange_twice"
   ],
   "note": "Bit reversal stated through testBit; involution; all k."
  },
  {
   "property": "C19",
   "status": "proved",
   "theorems": [
    "ZkSaas.Properties.C19_input_is_packed",
    "ZkSaas.Properties.C19_d_fft",
    "ZkSaas.Properties.C19_d_fft_end_to_end"
   ],
   "note": "All l=2^b, all sizes 2^(a+b), all inputs of 2l..4l-1 coefficients, all masks and randomness, every schedule of a reliable network."
  },
  {
   "property": "C20",
   "status": "proved",
   "theorems": [
    "ZkSaas.Properties.C20_d_ifft",
    "ZkSaas.Properties.C20_d_ifft_end_to_end"
   ],
   "note": "As C19, including multiplication by powers of g."
  },
  {
   "property": "C21",
   "status": "proved",
   "theorems": [
    "ZkSaas.Properties.C21_ifft_then_fft",
    "ZkSaas.Properties.C21_round_trip"
   ],
   "note": "Composition on the same session; the opened result is the input."
  },
  {
   "property": "C22",
   "status": "proved",
   "theorems": [
    "ZkSaas.Properties.C22_fft_masks_cancel",
    "ZkSaas.Properties.C22_ifft_masks_cancel"
   ],
   "note": "The opened results with sampled masks and with zero masks agree."
  },
  {
   "property": "C23",
   "status": "proved",
   "theorems": [
    "ZkSaas.Properties.C23_d_fft_one_missing",
    "ZkSaas.Properties.C23_d_ifft_one_missing",
    "ZkSaas.Properties.C23_d_fft_finishes"
   ],
   "note": "For arbitrary failures/time-outs with at most one party missing d_fft/d_ifft that finishes gives the same value; and such runs do finish."
  },
  {
   "property": "C24",
   "status": "proved",
   "theorems": [
    "ZkSaas.Properties.C24_deg_red",
    "ZkSaas.Properties.C24_multiply"
   ],
   "note": "deg_red under every schedule: 2l-coefficient shares of the same secrets; multiplication of dealt vectors end to end."
  },
  {
   "property": "C25",
   "status": "proved",
   "theorems": [
    "ZkSaas.Properties.C25_d_msm",
    "ZkSaas.Properties.C25_unequal_lengths"
   ],
   "note": "d_msm under every schedule: every party's share opens to the multi-scalar product in every slot; unequal lengths fault or fail."
  },
  {
   "property": "C26",
   "status": "proved",
   "theorems": [
    "ZkSaas.Properties.C26_d_pp",
    "ZkSaas.Properties.C26_zero_denominator"
   ],
   "note": "d_pp under every schedule: shares of the running products of num/den; a zero denominator makes the king panic and everybody else wait."
  },
  {
   "property": "C27",
   "status": "proved",
   "theorems": [
    "ZkSaas.Properties.C27_d_fft_uniform",
    "ZkSaas.Properties.C27_d_fft_independent",
    "ZkSaas.Properties.C27_d_ifft_uniform",
    "ZkSaas.Properties.C27_d_ifft_independent",
    "ZkSaas.Properties.C27_fresh_input"
   ],
   "note": "For fresh (2l-coefficient) inputs the messages to the king in d_fft/d_ifft are evaluations of polynomials that are in bijection with the random values drawn by FftMask::sample; hence every view has exactly one tape, and for two inputs a bijection of tapes equates the views. The king's own mask share and the tape of the out-mask are not part of the view; d_fft called on un-reduced (up to 4l-1 coefficients) shares is not covered (there C28's leak appears)."
  },
  {
   "property": "C28",
   "status": "proved",
   "theorems": [
    "ZkSaas.Properties.C28_deg_red_high_coefficients_visible",
    "ZkSaas.Properties.C28_deg_red_low_coefficients_uniform_partial",
    "ZkSaas.Properties.C28_d_msm_high_coefficients_visible",
    "ZkSaas.Properties.C28_deg_red_leaks_secrets"
   ],
   "note": "The English claim of complete masking is false of the code: for every mask the coefficients from 2l on are the unmasked ones (deg_red and d_msm), and over F17 a view is exhibited that zero secrets can never produce. The _partial theorem is the part that holds: the lower 2l coefficients are uniformly masked."
  },
  {
   "property": "C29",
   "status": "proved",
   "theorems": [
    "ZkSaas.Properties.C29_qap",
    "ZkSaas.Properties.C29_satisfied",
    "ZkSaas.Properties.C29_too_large",
    "ZkSaas.Properties.C29_column_out_of_range"
   ],
   "note": "All matrices and assignments; the error for too large systems and the panic for a bad column are characterised."
  },
  {
   "property": "C30",
   "status": "proved",
   "theorems": [
    "ZkSaas.Properties.C30_pss",
    "ZkSaas.Properties.C30_unpacks"
   ],
   "note": "All l=2^b, all domain sizes 2^(a+b), all randomness."
  },
  {
   "property": "C31",
   "status": "proved",
   "theorems": [
    "ZkSaas.Properties.C31_circom_h"
   ],
   "note": "All l, m, vectors, masks, randomness, every schedule of a reliable network."
  },
  {
   "property": "C32",
   "status": "proved",
   "theorems": [
    "ZkSaas.Properties.C32_libsnark_h",
    "ZkSaas.Properties.C32_end_to_end",
    "ZkSaas.Properties.C32_whole_group_panics"
   ],
   "note": "All l, m, vectors, masks, randomness, every schedule. Needs a non-zero field element outside the domain (otherwise the vanishing polynomial is zero on the coset and the code panics); C32_end_to_end starts from the constraint system. C32_whole_group_panics: on such a domain every server panics after the six transforms, under every schedule."
  },
  {
   "property": "C33",
   "status": "proved",
   "theorems": [
    "ZkSaas.Properties.C33_pack_key",
    "ZkSaas.Properties.C33_unpacks",
    "ZkSaas.Properties.C33_debug_panics",
    "ZkSaas.Properties.C33_empty_query_panics"
   ],
   "note": "For every key with non-empty a/b queries: n shares, public points unchanged, the five vectors shared in chunks of l (release: zero padded; debug: lengths must be multiples of l). The debug panic on every other key and the panic on empty queries are proved too."
  },
  {
   "property": "C34",
   "status": "proved",
   "theorems": [
    "ZkSaas.Properties.C34_A",
    "ZkSaas.Properties.C34_B_in_G2",
    "ZkSaas.Properties.C34_B_in_G1",
    "ZkSaas.Properties.C34_C"
   ],
   "note": "A, BInG1 (no share of r zero), BInG2, C: under every schedule the outputs are shares of the Groth16 formulas and unpack2 opens them to l copies. The case of zero shares of r is C36."
  },
  {
   "property": "C35",
   "status": "proved",
   "theorems": [
    "ZkSaas.Properties.C35_proof_verifies",
    "ZkSaas.Properties.C35_example_release",
    "ZkSaas.Properties.C35_wrong_assignment",
    "ZkSaas.Properties.C35_example_debug_panics",
    "ZkSaas.Properties.C35_key_exists"
   ],
   "note": "For every circuit, satisfying assignment, set-up secrets, r, s and client randomness: dealing (PSS.deal), the servers (dsha256) under every schedule, opening; the opened elements satisfy the verification equation for every bilinear map. With l copies of r the shares of r must be all non-zero (C36) and in debug builds the key aligned (C33); as written (n copies, release) no condition. Converse: for a non-satisfying assignment the proof verifies iff tau is a root of a fixed non-zero polynomial of degree < m. In debug builds the example as written panics. The set-up itself (ark-groth16 with CircomReduction) is a specification (IsQap, IsCircomKey), shown satisfiable by C35_key_exists."
  },
  {
   "property": "C36",
   "status": "proved",
   "theorems": [
    "ZkSaas.Properties.C36_share_uniform",
    "ZkSaas.Properties.C36_zero_share_rare",
    "ZkSaas.Properties.C36_zero_share_returns_identity",
    "ZkSaas.Properties.C36_stall",
    "ZkSaas.Properties.C36_deadlock",
    "ZkSaas.Properties.C34_B_in_G1"
   ],
   "note": "The desired property is false of the code; its negation is proved: a zero share returns the identity without communicating; whenever some share is zero every schedule ends in a deadlock of all other parties; for every non-zero r and every party a tape of pack exists that makes it happen. Strongest positive part: C34_B_in_G1 (no share zero). C36_share_uniform and C36_zero_share_rare: each share is uniform, so at most 4l in |F| choices of the dealer make it happen."
  },
  {
   "property": "C37",
   "status": "proved",
   "theorems": [
    "ZkSaas.Properties.C37_debug_panics",
    "ZkSaas.Properties.C37_release_reveals",
    "ZkSaas.Properties.C07_privacy"
   ],
   "note": "The desired property is false of the code; its negation is proved: packing n copies of r panics in a debug build and gives every party r itself in a release build, for every l, r and tape. Packing l copies instead is private (C07)."
  },
  {
   "property": "C38",
   "status": "proved",
   "theorems": [
    "ZkSaas.Properties.C38_round",
    "ZkSaas.Properties.C38_serialized"
   ],
   "note": "Raw and serialized rounds, arbitrary contents of other streams, every schedule."
  },
  {
   "property": "C39",
   "status": "proved",
   "theorems": [
    "ZkSaas.Properties.C39_raw",
    "ZkSaas.Properties.C39_every_subset",
    "ZkSaas.Properties.C39_serialized"
   ],
   "note": "Arbitrary failures and time-outs; 'delivered' is observed from outside (sent and no longer in transit). Every subset of responders and every hash-map order is shown to occur."
  },
  {
   "property": "C40",
   "status": "proved",
   "theorems": [
    "ZkSaas.Properties.C40_debug_d_fft",
    "ZkSaas.Properties.C40_debug_d_ifft",
    "ZkSaas.Properties.C40_debug_deg_red",
    "ZkSaas.Properties.C40_enough_deg_red",
    "ZkSaas.Properties.C40_debug_d_msm",
    "ZkSaas.Properties.C40_debug_king_panics",
    "ZkSaas.Properties.C40_release_wrong"
   ],
   "note": "False of the release build: for every responder set of size between t=l and 4l-2 there are honest inputs whose run ends successfully with wrong products (C40_release_wrong). Debug builds never return a wrong value under arbitrary failures (C40_debug_*), the king panics (C40_debug_king_panics), and with at least 4l-1 responders every build is correct (C40_enough_deg_red, C23)."
  },
  {
   "property": "C41",
   "status": "proved",
   "theorems": [
    "ZkSaas.Properties.C41_delivers",
    "ZkSaas.Properties.C41_bad_vector",
    "ZkSaas.Properties.C41_client_with_data",
    "ZkSaas.Properties.C41_king_without_data"
   ],
   "note": "Every schedule; also vectors that are too short (king panics)."
  },
  {
   "property": "C42",
   "status": "proved",
   "theorems": [
    "ZkSaas.Properties.C42_timeout",
    "ZkSaas.Properties.C42_all_delivered",
    "ZkSaas.Properties.C42_full",
    "ZkSaas.Properties.C42_trailing",
    "ZkSaas.Properties.C42_truncated"
   ],
   "note": "Arbitrary bytes of every party."
  },
  {
   "property": "C43",
   "status": "proved",
   "theorems": [
    "ZkSaas.Properties.C43_concurrent",
    "ZkSaas.Properties.C43_sequential",
    "ZkSaas.Properties.C43_three"
   ],
   "note": "All programs with disjoint streams in concurrent branches (Proc.WF in Spec/Net.lean)."
  },
  {
   "property": "C44",
   "status": "proved",
   "theorems": [
    "ZkSaas.Properties.C44_schedule_independent",
    "ZkSaas.Properties.C19_d_fft",
    "ZkSaas.Properties.C20_d_ifft",
    "ZkSaas.Properties.C24_deg_red",
    "ZkSaas.Properties.C25_d_msm",
    "ZkSaas.Properties.C26_d_pp",
    "ZkSaas.Properties.C31_circom_h",
    "ZkSaas.Properties.C32_libsnark_h"
   ],
   "note": "Generic theorem for all programs, and its instances for each protocol (every schedule ends with the correct shares)."
  },
  {
   "property": "C45",
   "status": "proved",
   "theorems": [
    "ZkSaas.Properties.C45_stale_message",
    "ZkSaas.Properties.C45_no_timeout"
   ],
   "note": "False of the code: negation proved for every n, every set of late parties and all messages; after the time-out every schedule mixes the rounds up."
  },
  {
   "property": "C46",
   "status": "proved",
   "theorems": [
    "ZkSaas.Properties.C46_roundtrip",
    "ZkSaas.Properties.C46_sender",
    "ZkSaas.Properties.C46_cut",
    "ZkSaas.Properties.C46_oversize_header"
   ],
   "note": "Every message list, every cutting of the bytes into reads, every point at which the connection is cut. The byte stream below the codec is a contract (TCP/TLS/smux deliver in order)."
  },
  {
   "property": "C47",
   "status": "proved",
   "theorems": [
    "ZkSaas.Properties.C47_decode_encode",
    "ZkSaas.Properties.C47_decode_sound",
    "ZkSaas.Properties.C47_injective",
    "ZkSaas.Properties.C47_refused",
    "ZkSaas.Properties.C47_recv",
    "ZkSaas.Properties.C47_limit",
    "ZkSaas.Properties.C47_stream"
   ],
   "note": "Includes the frame limit for ProdNet payloads (8 MiB - 12) and that trailing bytes of a frame are ignored (decode_encode with junk), i.e. encodings are unique but a receiver accepts extra bytes."
  },
  {
   "property": "C48",
   "status": "proved",
   "theorems": [
    "ZkSaas.Properties.C48_setup",
    "ZkSaas.Properties.C48_wrong_reply",
    "ZkSaas.Properties.C48_wrong_syn",
    "ZkSaas.Properties.C48_bad_input"
   ],
   "note": "Every iteration order of the hash map and every schedule. The multiplexer's opening of streams is modelled by three messages."
  },
  {
   "property": "C49",
   "status": "proved",
   "theorems": [
    "ZkSaas.Properties.C49_any_ids",
    "ZkSaas.Properties.C49_complete_iff",
    "ZkSaas.Properties.C49_ids_as_announced",
    "ZkSaas.Properties.C49_round_partial",
    "ZkSaas.Properties.C49_send_fails"
   ],
   "note": "The desired property (one connection per party) is false; proved: the exact map the king ends up with for arbitrary announced ids, that it is complete iff the ids are a permutation of 1..n-1, and what follows for later rounds when a party is missing. What the peer of a replaced connection observes after the replacement is not modelled."
  },
  {
   "property": "C50",
   "status": "proved",
   "theorems": [
    "ZkSaas.Properties.C50_mesh",
    "ZkSaas.Properties.C50_ids",
    "ZkSaas.Properties.C50_genesis",
    "ZkSaas.Properties.C50_check"
   ],
   "note": "All interleavings of the dial/accept tasks and all accept orders; runs are finite, end in a full mesh after exactly 3n(n-1) steps, never stuck before. Genesis round and final check succeed on a reliable network."
  },
  {
   "property": "C51",
   "status": "proved",
   "theorems": [
    "ZkSaas.Properties.C51_local_never",
    "ZkSaas.Properties.C51_local_others",
    "ZkSaas.Properties.C51_prod"
   ],
   "note": "False of the code for LocalTestNet: C51_local_never proves is_init is false in every state because of the node's own entry; C51_local_others: without that entry it would be true exactly for the full mesh. True for ProdNet (C51_prod)."
  },
  {
   "property": "C52",
   "status": "proved",
   "theorems": [
    "ZkSaas.Properties.C52_order",
    "ZkSaas.Properties.C52_panic",
    "ZkSaas.Properties.C52_lossy"
   ],
   "note": "FuturesOrdered is modelled by its index heap; all orders of hash map iteration and of completion. A panicking task makes the round panic; the lossy variant drops the last party's result and panics for no parties."
  },
  {
   "property": "C53",
   "status": "proved",
   "theorems": [
    "ZkSaas.Properties.C53_local_limit",
    "ZkSaas.Properties.C53_prod_limit",
    "ZkSaas.Properties.C53_elements_of_32_bytes",
    "ZkSaas.Properties.C53_d_fft",
    "ZkSaas.Properties.C53_d_ifft",
    "ZkSaas.Properties.C53_deg_red",
    "ZkSaas.Properties.C53_d_pp",
    "ZkSaas.Properties.C53_d_msm",
    "ZkSaas.Properties.C53_circom_h",
    "ZkSaas.Properties.C53_libsnark_h",
    "ZkSaas.Properties.C53_example"
   ],
   "note": "AlwaysYieldsWithin lim: as AlwaysYields on a network that transports no message over lim bytes. NeverFinishes lim: the client never returns Ok, whatever else fails. Both for every lim; C53_local_limit and C53_prod_limit tie lim to the codec model of C46/C47, C53_elements_of_32_bytes works out a <= 17."
  },
  {
   "property": "C54",
   "status": "proved",
   "theorems": [
    "ZkSaas.Properties.C54_pack_vec",
    "ZkSaas.Properties.C54_pack_from_witness",
    "ZkSaas.Properties.C54_qap_pss"
   ],
   "note": "For pack_vec (any module), pack_from_witness and QAP::pss (three vectors jointly). The tape is uniform in the statement; C56 is about what the code draws it from."
  },
  {
   "property": "C55",
   "status": "proved",
   "theorems": [
    "ZkSaas.Properties.C55_d_fft_fresh",
    "ZkSaas.Properties.C55_d_ifft_fresh",
    "ZkSaas.Properties.C55_deg_red_fresh"
   ],
   "note": "d_fft, d_ifft (field) and deg_red (any module), under every reliable schedule. The tape is the king's; d_fft's king takes test_rng in the code (see C56)."
  },
  {
   "property": "C56",
   "status": "proved",
   "theorems": [
    "ZkSaas.Properties.C56_pack_known_tape",
    "ZkSaas.Properties.C56_qap_known_tape",
    "ZkSaas.Properties.C56_dealing_known_tape"
   ],
   "note": "A finding: QAP::pss and d_fft's king use ark_std::test_rng(). That test_rng is a fixed tape is ark_std's (its getrandom feature is off in the repository); the theorem is for every fixed tape."
  },
  {
   "property": "C57",
   "status": "proved",
   "theorems": [
    "ZkSaas.Properties.C57_dealing_hides_witness",
    "ZkSaas.Properties.C57_example_reveals"
   ],
   "note": "With l copies of r and s the coalition's inputs are the same after a translation of the tape (seven components; the tapes of the masks untouched). For the code as written (n copies, release build) C57_example_reveals shows each server is given r and s."
  },
  {
   "property": "C58",
   "status": "proved",
   "theorems": [
    "ZkSaas.Properties.C58_recording_faithful",
    "ZkSaas.Properties.C58_d_fft",
    "ZkSaas.Properties.C58_d_ifft",
    "ZkSaas.Properties.C58_deg_red",
    "ZkSaas.Properties.C58_d_msm",
    "ZkSaas.Properties.C58_session",
    "ZkSaas.Properties.C58_circom_h",
    "ZkSaas.Properties.C58_libsnark_h"
   ],
   "note": "Recorded executions (Spec/View.lean) with a two-run coupling. The recording includes what the king gathers, and the statement compares the transcripts of all parties other than the king; the king's transcript is C61 (with the leak of the upper coefficients, C28). The session needs masks drawn from groups generated by gen1 and gen2, and shares of r that are all non-zero or all zero (C36); the statement is about l copies of r and s being packed, not the n copies the example packs (C57_example_reveals)."
  },
  {
   "property": "C59",
   "status": "proved",
   "theorems": [
    "ZkSaas.Properties.C59_groth16_proof",
    "ZkSaas.Properties.C59_example_release"
   ],
   "note": "Spec/Groth16.lean IsGroth16Proof is the proof of the paper; l copies of r and s packed (C59_groth16_proof) and the example as written in a release build (C59_example_release). Shares of r all non-zero or all zero, see C36."
  },
  {
   "property": "C60",
   "status": "proved",
   "theorems": [
    "ZkSaas.Properties.C60_zero_knowledge"
   ],
   "note": "C58 together with the opened proof. The king's transcript is not compared (C61, C28). Needs the shares of r of both sessions to be all non-zero (C36 says what happens otherwise), random tapes instead of test_rng (C56), and l copies of r and s (C57_example_reveals)."
  },
  {
   "property": "C61",
   "status": "proved",
   "theorems": [
    "ZkSaas.Properties.C61_inputs_exist",
    "ZkSaas.Properties.C61_d_fft",
    "ZkSaas.Properties.C61_d_ifft",
    "ZkSaas.Properties.C61_deg_red",
    "ZkSaas.Properties.C61_deg_red_secrets",
    "ZkSaas.Properties.C61_deg_red_leaks",
    "ZkSaas.Properties.C61_d_msm",
    "ZkSaas.Properties.C61_d_msm_leaks",
    "ZkSaas.Properties.C61_d_fft_wide",
    "ZkSaas.Properties.C61_d_ifft_wide",
    "ZkSaas.Properties.C61_d_fft_leaks",
    "ZkSaas.Properties.C61_d_ifft_leaks"
   ],
   "note": "For d_fft and d_ifft the inputs have 2l coefficients (fresh shares or outputs of an earlier transform). For deg_red and d_msm the condition on the upper coefficients is necessary (the _leaks theorems) and sufficient."
  },
  {
   "property": "C62",
   "status": "proved",
   "theorems": [
    "ZkSaas.Properties.C62_shift_bijective",
    "ZkSaas.Properties.C62_circom_h",
    "ZkSaas.Properties.C62_circom_h_leaks",
    "ZkSaas.Properties.C62_libsnark_h",
    "ZkSaas.Properties.C62_libsnark_h_leaks"
   ],
   "note": "C62_circom_h and C62_libsnark_h couple runs on two programs through the random tapes, the king's transcript included; C62_shift_bijective shows that the change of tapes is a bijection; C62_circom_h_leaks and C62_libsnark_h_leaks are the converse: equal king transcripts force the shares of A·B - C to differ by 2l coefficients only. EvaluatesTo is stated through executions of d_ifft and d_fft. The king's randomness is the same in the two runs; the masks are sampled with random tapes (not test_rng)."
  },
  {
   "property": "C63",
   "status": "proved",
   "theorems": [
    "ZkSaas.Properties.C63_circom_test",
    "ZkSaas.Properties.C63_libsnark_test",
    "ZkSaas.Properties.C63_circom_witness_map"
   ],
   "note": "The references are modelled line by line (ext_wit.rs:204-285); witness_map_from_matrices belongs to ark-circom and is modelled by its documented behaviour. libsnark needs a field element whose 2^(a+b)-th power is not 1, otherwise the code panics (C32)."
  },
  {
   "property": "C64",
   "status": "proved",
   "theorems": [
    "ZkSaas.Properties.C64_local_dfft",
    "ZkSaas.Properties.C64_d_fft_test",
    "ZkSaas.Properties.C64_d_pp_test",
    "ZkSaas.Properties.C64_d_msm_test"
   ],
   "note": "Programs transcribed in Model/Checks.lean; the fixed vectors of the source are parameters there, so the theorems hold for all vectors of the right length. d_pp_test needs non-zero entries, as in the source (1..m)."
  },
  {
   "property": "C65",
   "status": "proved",
   "theorems": [
    "ZkSaas.Properties.C65_constraint_domain",
    "ZkSaas.Properties.C65_constraint_domain_iff",
    "ZkSaas.Properties.C65_local_groth",
    "ZkSaas.Properties.C65_local_groth_not_pow2"
   ],
   "note": "Non-powers of two in release builds: proved to panic (C65_local_groth_not_pow2), so the accepted sizes are wider than the usable ones. In the source p, q and w are 0..m; here they are arbitrary."
  },
  {
   "property": "C66",
   "status": "proved",
   "theorems": [
    "ZkSaas.Properties.C66_rand",
    "ZkSaas.Properties.C66_add_ids",
    "ZkSaas.Properties.C66_add_ids_overflow"
   ],
   "note": "The overflow of the u32 sum in debug builds is proved as C66_add_ids_overflow. bincode2 of a u32 is modelled as 4 little-endian bytes; the TLS set-up before the exchange is C49."
  },
  {
   "property": "C67",
   "status": "proved",
   "theorems": [
    "ZkSaas.Properties.C67_d_fft",
    "ZkSaas.Properties.C67_d_ifft",
    "ZkSaas.Properties.C67_deg_red",
    "ZkSaas.Properties.C67_d_msm",
    "ZkSaas.Properties.C67_d_pp",
    "ZkSaas.Properties.C67_circom_h",
    "ZkSaas.Properties.C67_libsnark_h",
    "ZkSaas.Properties.C67_A",
    "ZkSaas.Properties.C67_C",
    "ZkSaas.Properties.C67_detected",
    "ZkSaas.Properties.C67_proof",
    "ZkSaas.Properties.C67_two_cheaters",
    "ZkSaas.Properties.C67_release_cheater",
    "ZkSaas.Properties.C67_late_party"
   ],
   "note": "True of debug builds only; the three ways in which it fails are proved as C67_release_cheater, C67_two_cheaters and C67_late_party. Safety with abort: a cheater can always make the others fail or wait."
  },
  {
   "property": "C68",
   "status": "proved",
   "theorems": [
    "ZkSaas.Properties.C68_king_learns",
    "ZkSaas.Properties.C68_coalition"
   ],
   "note": "Finding: s = 1 (dummy randomness) and no mask in the first round, so the king reads all inputs off it (C68_king_learns, an explicit function). C68_coalition: any l other parties see nothing."
  },
  {
   "property": "C69",
   "status": "proved",
   "theorems": [
    "ZkSaas.Properties.C69_d_fft_works",
    "ZkSaas.Properties.C69_d_ifft_works",
    "ZkSaas.Properties.C69_d_ifftxd_fft_works",
    "ZkSaas.Properties.C69_coset_works",
    "ZkSaas.Properties.C69_test_deg_red",
    "ZkSaas.Properties.C69_test_initialize",
    "ZkSaas.Properties.C69_test_det_packing",
    "ZkSaas.Properties.C69_test_packing",
    "ZkSaas.Properties.C69_test_multiplication",
    "ZkSaas.Properties.C69_test_eval_interpolate",
    "ZkSaas.Properties.C69_test_error_correction",
    "ZkSaas.Properties.C69_pack_unpack_test",
    "ZkSaas.Properties.C69_pack_unpack2_test",
    "ZkSaas.Properties.C69_test_multiplexing"
   ],
   "note": "All unit tests with assertions as programs with free inputs. Two are false in general: test_packing panics in debug builds for l >= 4 and test_eval_interpolate fails exactly if the last coefficient is zero; both are stated as equations that say when."
  },
  {
   "property": "C70",
   "status": "proved",
   "theorems": [
    "ZkSaas.Properties.C70_exact",
    "ZkSaas.Properties.C70_few_changes_show",
    "ZkSaas.Properties.C70_more_changes_hide"
   ],
   "note": "Tightness of C07: C70_exact characterises the common views of at most 2l parties; C70_few_changes_show and C70_more_changes_hide draw the line at l + m parties. C05 covers the recovery by all parties."
  },
  {
   "property": "C71",
   "status": "proved",
   "theorems": [
    "ZkSaas.Properties.C71_d_fft",
    "ZkSaas.Properties.C71_d_ifft",
    "ZkSaas.Properties.C71_deg_red",
    "ZkSaas.Properties.C71_d_pp",
    "ZkSaas.Properties.C71_d_msm",
    "ZkSaas.Properties.C71_circom_h",
    "ZkSaas.Properties.C71_libsnark_h",
    "ZkSaas.Properties.C71_A",
    "ZkSaas.Properties.C71_C",
    "ZkSaas.Properties.C71_proof",
    "ZkSaas.Properties.C71_two_silent",
    "ZkSaas.Properties.C71_d_pp_debug",
    "ZkSaas.Properties.C71_threshold"
   ],
   "note": "Liveness and agreement with the run in which nobody falls silent. The limits are proved as C71_two_silent, C71_d_pp_debug (debug builds) and C71_threshold; wrong results of release builds with too few answers are C40_release_wrong."
  },
  {
   "property": "C72",
   "status": "proved",
   "theorems": [
    "ZkSaas.Properties.C72_trace",
    "ZkSaas.Properties.C72_d_fft",
    "ZkSaas.Properties.C72_d_ifft",
    "ZkSaas.Properties.C72_deg_red",
    "ZkSaas.Properties.C72_d_msm",
    "ZkSaas.Properties.C72_d_pp",
    "ZkSaas.Properties.C72_circom_h",
    "ZkSaas.Properties.C72_libsnark_h",
    "ZkSaas.Properties.C72_A",
    "ZkSaas.Properties.C72_B_in_G1",
    "ZkSaas.Properties.C72_B_in_G2",
    "ZkSaas.Properties.C72_C",
    "ZkSaas.Properties.C72_session",
    "ZkSaas.Properties.C72_needs_king",
    "ZkSaas.Properties.C72_king_stops",
    "ZkSaas.Properties.C72_down",
    "ZkSaas.Properties.C72_zero_share",
    "ZkSaas.Properties.C72_total",
    "ZkSaas.Properties.C72_session_total"
   ],
   "note": "C72_needs_king and C72_king_stops hold for every program that takes rounds; C72_zero_share is the session level form of the fault of C36. The histories are those of the executions of the network model (C72_trace)."
  },
  {
   "property": "C73",
   "status": "proved",
   "theorems": [
    "ZkSaas.Properties.C73_dmsm_bench",
    "ZkSaas.Properties.C73_msm_bench",
    "ZkSaas.Properties.C73_own_draws"
   ],
   "note": "The fields, groups and sizes of the source are parameters. A release build with different numbers at the parties opens whatever polynomial the local products lie on (C67 treats the consequences)."
  },
  {
   "property": "C74",
   "status": "proved",
   "theorems": [
    "ZkSaas.Properties.C74_other_factor",
    "ZkSaas.Properties.C74_full_degree"
   ],
   "note": "For products of two fresh sharings (2l coefficients each). learn is noncomputable only because polynomial division in Mathlib is."
  },
  {
   "property": "C75",
   "status": "proved",
   "theorems": [
    "ZkSaas.Properties.C75_circom_h",
    "ZkSaas.Properties.C75_libsnark_h",
    "ZkSaas.Properties.C75_full_degree",
    "ZkSaas.Properties.C75_full_degree_libsnark"
   ],
   "note": "circom_h: an explicit function, noncomputable only because polynomial division in Mathlib is. libsnark_h: stated as equality of b in indistinguishable runs, because its last step is a transform and an explicit function would have to undo it."
  },
  {
   "property": "C76",
   "status": "proved",
   "theorems": [
    "ZkSaas.Properties.C76_d_msm",
    "ZkSaas.Properties.C76_exact",
    "ZkSaas.Properties.C76_session",
    "ZkSaas.Properties.C76_tells_apart"
   ],
   "note": "The session theorem names three of the five sums (those over the a query, the b query in G2 and the private part of the key). Assumes, as C35, that the shares of r are all zero or all nonzero (C36). Exactness is proved for a single d_msm."
  },
  {
   "property": "C77",
   "status": "proved",
   "theorems": [
    "ZkSaas.Properties.C77_d_fft",
    "ZkSaas.Properties.C77_d_ifft",
    "ZkSaas.Properties.C77_d_pp",
    "ZkSaas.Properties.C77_deg_red",
    "ZkSaas.Properties.C77_d_msm",
    "ZkSaas.Properties.C77_circom_h",
    "ZkSaas.Properties.C77_libsnark_h",
    "ZkSaas.Properties.C77_session",
    "ZkSaas.Properties.C77_proof_verifies",
    "ZkSaas.Properties.C77_timeouts",
    "ZkSaas.Properties.C77_pending",
    "ZkSaas.Properties.C77_same_stream"
   ],
   "note": "All protocols: one message in flight (for all inputs and n), no contention (on any network) and, whenever the run yields a result, the same result on buffers of any size from one message on. C77_proof_verifies: the proof verifies on buffers of one message. C77_pending: the specification of a pending use covers every send and receive step. C77_same_stream: two d_msm on one stream contend. C77_timeouts: with king time-outs the backlog is unbounded. Example: a program that deadlocks with one-message buffers."
  },
  {
   "property": "C78",
   "status": "proved",
   "theorems": [
    "ZkSaas.Properties.C78_d_msm",
    "ZkSaas.Properties.C78_deg_red",
    "ZkSaas.Properties.C78_fft2",
    "ZkSaas.Properties.C78_d_msm_shift",
    "ZkSaas.Properties.C78_session",
    "ZkSaas.Properties.C78_wrong_proof"
   ],
   "note": "Rounds for arbitrary answers of the king; d_msm with a shifted answer; a whole session with five shifts and when the verifier accepts; corollary: a rejected proof. The dishonest king of C78_session is the program runShift at party 0; for every other party runShift is the program of the model (runShift_server)."
  },
  {
   "property": "C79",
   "status": "proved",
   "theorems": [
    "ZkSaas.Properties.C79_reads",
    "ZkSaas.Properties.C79_vector",
    "ZkSaas.Properties.C79_quiet",
    "ZkSaas.Properties.C79_quiet_alone"
   ],
   "note": "The king alone reads a chosen slot of a chosen vector in every position; after l runs it knows the b vector; the quiet variant keeps the result right and gives l parties one linear equation per position (all of b for l = 1). The king runs circomHShift, everybody else the program of the model."
  },
  {
   "property": "C80",
   "status": "proved",
   "theorems": [
    "ZkSaas.Properties.C80_bn254_parameters",
    "ZkSaas.Properties.C80_bls377_parameters",
    "ZkSaas.Properties.C80_bn254_proofs",
    "ZkSaas.Properties.C80_bls377_proofs",
    "ZkSaas.Properties.C80_bn254_frames"
   ],
   "note": "Primality and orders by Pratt certificates whose powers the kernel computes (Lemmas/Pratt.lean); the moduli and constants are those of ark-bn254 0.4 and ark-bls12-377 0.4. The groups are any modules over the field: that the points of the curves are one is not proved. The sessions are those of C35 (release build) with the conditions discharged."
  },
  {
   "property": "C81",
   "status": "proved",
   "theorems": [
    "ZkSaas.Properties.C81_transports",
    "ZkSaas.Properties.C81_next",
    "ZkSaas.Properties.C81_local",
    "ZkSaas.Properties.C81_prod",
    "ZkSaas.Properties.C81_never",
    "ZkSaas.Properties.C81_example",
    "ZkSaas.Properties.C81_bn254"
   ],
   "note": "Model/ByteNet.lean: byte streams with the codec of Model/Wire.lean, reads of any size, failures of the codec. Every execution on bytes is simulated by one on messages (BSteps.sim), progress carries over, and the reads are bounded by the bytes written."
  },
  {
   "property": "C82",
   "status": "proved",
   "theorems": [
    "ZkSaas.Properties.C82_session",
    "ZkSaas.Properties.C82_clients_unconnected",
    "ZkSaas.Properties.C82_protocols",
    "ZkSaas.Properties.C82_add_ids",
    "ZkSaas.Properties.C82_example"
   ],
   "note": "A successful protocol of a king and its clients succeeds with the same results after the set-up of the production network, for every order of connections, hash map order and schedule; all protocols are of this kind; add_ids and the session of the example as corollaries."
  },
  {
   "property": "C83",
   "status": "proved",
   "theorems": [
    "ZkSaas.Properties.C83_accept",
    "ZkSaas.Properties.C83_waits",
    "ZkSaas.Properties.C83_stranger",
    "ZkSaas.Properties.C83_certificates_ignored",
    "ZkSaas.Properties.C83_impersonation"
   ],
   "note": "The accept loop of the king in full; the session part is C82 with connections of arbitrary certificates."
  },
  {
   "property": "C84",
   "status": "proved",
   "theorems": [
    "ZkSaas.Properties.C84_d_fft",
    "ZkSaas.Properties.C84_d_ifft",
    "ZkSaas.Properties.C84_deg_red",
    "ZkSaas.Properties.C84_d_msm",
    "ZkSaas.Properties.C84_d_pp",
    "ZkSaas.Properties.C84_circom_h",
    "ZkSaas.Properties.C84_libsnark_h",
    "ZkSaas.Properties.C84_session",
    "ZkSaas.Properties.C84_example_release"
   ],
   "note": "Executions with their history; the bytes taken by a party are those in its recorded transcript (Lemmas/Volume.lean), and every message of a protocol has a size that depends on the parameters only. Sizes are those of the serialised values; the length prefix of a frame (C47, C53) comes on top for each message."
  },
  {
   "property": "C85",
   "status": "proved",
   "theorems": [
    "ZkSaas.Properties.C85_pss_empty",
    "ZkSaas.Properties.C85_masks_panic",
    "ZkSaas.Properties.C85_debug_panics",
    "ZkSaas.Properties.C85_d_fft_hangs",
    "ZkSaas.Properties.C85_d_ifft_hangs",
    "ZkSaas.Properties.C85_deal_panics",
    "ZkSaas.Properties.C85_deal_iff"
   ],
   "note": "A circuit smaller than the packing factor: empty shares, a panicking sampler, a panicking dealer; with a fitting key dealing succeeds in a release build iff the domain has at least l points. The transforms of empty shares panic (debug) or leave the clients waiting for a king that has panicked (release). That dealing fails only by panics is a lemma (PSS.deal_onlyPanics)."
  },
  {
   "property": "C86",
   "status": "proved",
   "theorems": [
    "ZkSaas.Properties.C86_then",
    "ZkSaas.Properties.C86_in_turn",
    "ZkSaas.Properties.C86_leave_nothing",
    "ZkSaas.Properties.C86_proofs",
    "ZkSaas.Properties.C86_leftovers_matter"
   ],
   "note": "For all inputs and schedules; sequences of any length; a production network serving any number of proofs of different circuits. C86_leftovers_matter is the counterexample without the hypothesis. Failures in an earlier protocol are C45 (late messages)."
  },
  {
   "property": "C87",
   "status": "proved",
   "theorems": [
    "ZkSaas.Properties.C87_d_fft",
    "ZkSaas.Properties.C87_d_ifft",
    "ZkSaas.Properties.C87_deg_red",
    "ZkSaas.Properties.C87_d_msm",
    "ZkSaas.Properties.C87_circom_h",
    "ZkSaas.Properties.C87_libsnark_h",
    "ZkSaas.Properties.C87_views",
    "ZkSaas.Properties.C87_fresh_d_fft"
   ],
   "note": "Two runs with the same masks give the king the difference of the inputs, by one function for all masks and inputs (C87_d_fft, C87_d_ifft, C87_deg_red, C87_d_msm, C87_circom_h, C87_libsnark_h); with masks of their own any number of transforms in turn hide as one does (C87_views, C87_fresh_d_fft)."
  },
  {
   "property": "C88",
   "status": "proved",
   "theorems": [
    "ZkSaas.Properties.C88_unpack2",
    "ZkSaas.Properties.C88_open",
    "ZkSaas.Properties.C88_one_server",
    "ZkSaas.Properties.C88_two_servers",
    "ZkSaas.Properties.C88_verifier",
    "ZkSaas.Properties.C88_session"
   ],
   "note": "Exact for all answers (C88_open, C88_unpack2); what one server of a release build and two servers of any build do with it (C88_one_server, C88_two_servers, C88_verifier, C88_session). That one server of a debug build cannot is C67_proof. Assumes that the generator is no 4l-th root of unity, as for the curves in use (C80)."
  },
  {
   "property": "C89",
   "status": "proved",
   "theorems": [
    "ZkSaas.Properties.C89_clocks_only_measure",
    "ZkSaas.Properties.C89_d_fft",
    "ZkSaas.Properties.C89_d_ifft",
    "ZkSaas.Properties.C89_deg_red",
    "ZkSaas.Properties.C89_d_msm",
    "ZkSaas.Properties.C89_d_pp",
    "ZkSaas.Properties.C89_circom_h",
    "ZkSaas.Properties.C89_libsnark_h",
    "ZkSaas.Properties.C89_session",
    "ZkSaas.Properties.C89_proof",
    "ZkSaas.Properties.C89_example_release"
   ],
   "note": "Clocks: Proc.timed (Spec/Latency.lean) writes the time of arrival in front of every message; C89_clocks_only_measure says that this changes nothing else. The protocol theorems assume only that the protocol always succeeds (C19, C20, C24, C25, C26, C31, C32, C35 say when) and give the number of round trips; C89_proof and C89_example_release put both together for a session."
  },
  {
   "property": "C90",
   "status": "proved",
   "theorems": [
    "ZkSaas.Properties.C90_same_messages",
    "ZkSaas.Properties.C90_d_fft",
    "ZkSaas.Properties.C90_d_ifft",
    "ZkSaas.Properties.C90_deg_red",
    "ZkSaas.Properties.C90_d_msm",
    "ZkSaas.Properties.C90_d_pp",
    "ZkSaas.Properties.C90_circom_h",
    "ZkSaas.Properties.C90_libsnark_h",
    "ZkSaas.Properties.C90_session",
    "ZkSaas.Properties.C90_example_release"
   ],
   "note": "SameTraffic compares all executions without network faults, step by step: sender, receiver, stream, length, which party computes, and who has finished. TLS record framing and time are not modelled. C90_same_messages gives the messages themselves. The session theorem needs that no packed share of r is zero; C90_example_release drops this and says exactly what the traffic shows."
  },
  {
   "property": "C91",
   "status": "proved",
   "theorems": [
    "ZkSaas.Properties.C91_scalar",
    "ZkSaas.Properties.C91_order",
    "ZkSaas.Properties.C91_g1",
    "ZkSaas.Properties.C91_g2",
    "ZkSaas.Properties.C91_g1_all",
    "ZkSaas.Properties.C91_g2_card",
    "ZkSaas.Properties.C91_pairing_exists",
    "ZkSaas.Properties.C91_wire",
    "ZkSaas.Properties.C91_d_msm",
    "ZkSaas.Properties.C91_proofs",
    "ZkSaas.Properties.C91_session"
   ],
   "note": "groups of BN254: order, encoding, d_msm, proofs and bytes of a session over the concrete curves; the pairing is any bilinear map"
  },
  {
   "property": "C92",
   "status": "proved",
   "theorems": [
    "ZkSaas.Properties.C92_n_parties"
   ],
   "note": "all options of all nodes, all schedules"
  },
  {
   "property": "C93",
   "status": "proved",
   "theorems": [
    "ZkSaas.Properties.C93_g1",
    "ZkSaas.Properties.C93_g1_card",
    "ZkSaas.Properties.C93_g2",
    "ZkSaas.Properties.C93_outside",
    "ZkSaas.Properties.C93_pairing_exists",
    "ZkSaas.Properties.C93_wire",
    "ZkSaas.Properties.C93_d_msm",
    "ZkSaas.Properties.C93_benches",
    "ZkSaas.Properties.C93_proofs"
   ],
   "note": "The constants of ark-bls12-377 0.4 are given; that the modulus is prime, the generators lie on the curves and have order r, |G1| = r and that -5 is not a square is proved by computation in the kernel. Square roots and the subgroup test of the reader are taken by their contract, as in C91. The order of G2 is not determined (it would need a large part of the order of the twist); C93_pairing_exists is therefore stated point by point."
  },
  {
   "property": "C94",
   "status": "proved",
   "theorems": [
    "ZkSaas.Properties.C94_sum_all_ids",
    "ZkSaas.Properties.C94_check",
    "ZkSaas.Properties.C94_channel_reads",
    "ZkSaas.Properties.C94_channel_panics"
   ],
   "note": "Set-up and routing are those of C82, from the established connections on (TLS: C83). The sum is over `u32`, with the overflow check of debug builds. ChannelIO is modelled apart from the protocols: a channel of byte vectors read with buffers of any size. Its behaviour after the sender is dropped (an error) is not modelled."
  },
  {
   "property": "C95",
   "status": "proved",
   "theorems": [
    "ZkSaas.Properties.C95_packets",
    "ZkSaas.Properties.C95_session",
    "ZkSaas.Properties.C95_confusion",
    "ZkSaas.Properties.C95_protocols",
    "ZkSaas.Properties.C95_example",
    "ZkSaas.Properties.C95_bn254"
   ],
   "note": "Packets around every payload preserve always-succeeding (C95_packets); set-up, packets, frames and pieces together (C95_session); handshake and payload packets are told apart; all protocols qualify; the example session and its BN254 instance."
  },
  {
   "property": "C96",
   "status": "proved",
   "theorems": [
    "ZkSaas.Properties.C96_d_fft",
    "ZkSaas.Properties.C96_d_ifft",
    "ZkSaas.Properties.C96_deg_red",
    "ZkSaas.Properties.C96_d_msm",
    "ZkSaas.Properties.C96_d_pp_release",
    "ZkSaas.Properties.C96_circom_h",
    "ZkSaas.Properties.C96_libsnark_h",
    "ZkSaas.Properties.C96_d_fft_wrong",
    "ZkSaas.Properties.C96_d_ifft_wrong",
    "ZkSaas.Properties.C96_deg_red_wrong",
    "ZkSaas.Properties.C96_d_msm_wrong",
    "ZkSaas.Properties.C96_d_pp_wrong",
    "ZkSaas.Properties.C96_open_short",
    "ZkSaas.Properties.C96_session"
   ],
   "note": "Fewer servers (C96_d_fft, d_ifft, deg_red, d_msm, d_pp_release, circom_h, libsnark_h, session); the client of the example on one share too few (C96_open_short, last conjuncts of C96_session); wrong counts (…_wrong). Sessions and the h protocols are proved for exactly one missing server, where every sharing of theirs, up to 4l-1 coefficients, is still determined."
  },
  {
   "property": "C97",
   "status": "proved",
   "theorems": [
    "ZkSaas.Properties.C97_mixed",
    "ZkSaas.Properties.C97_works_iff",
    "ZkSaas.Properties.C97_chance",
    "ZkSaas.Properties.C97_bn254",
    "ZkSaas.Properties.C97_bls377"
   ],
   "note": "C97_mixed holds for any number of servers and any inputs. C97_works_iff is an equivalence; the bad sessions are shown never to end. C97_chance bounds the number of bad choices from both sides (the factor 4l between the bounds is the union bound)."
  },
  {
   "property": "C98",
   "status": "proved",
   "theorems": [
    "ZkSaas.Properties.C98_words",
    "ZkSaas.Properties.C98_new",
    "ZkSaas.Properties.C98_new_debug",
    "ZkSaas.Properties.C98_new_wraps",
    "ZkSaas.Properties.C98_sharing",
    "ZkSaas.Properties.C98_transform",
    "ZkSaas.Properties.C98_vectors",
    "ZkSaas.Properties.C98_qap",
    "ZkSaas.Properties.C98_dfft",
    "ZkSaas.Properties.C98_rounds",
    "ZkSaas.Properties.C98_libsnark_h",
    "ZkSaas.Properties.C98_session",
    "ZkSaas.Properties.C98_works_iff",
    "ZkSaas.Properties.C98_works",
    "ZkSaas.Properties.C98_curves"
   ],
   "note": "Equality of the functions with 64-bit arithmetic and the exact ones used in the other properties; for networks both directions of simulation with equal queues, results and stuckness (BehaveAlike), for every class of faults. C98_works carries C97 over to machine integers. C98_new_wraps is a finding."
  },
  {
   "property": "C99",
   "status": "proved",
   "theorems": [
    "ZkSaas.Properties.C99_parameters",
    "ZkSaas.Properties.C99_sharing",
    "ZkSaas.Properties.C99_masks",
    "ZkSaas.Properties.C99_client",
    "ZkSaas.Properties.C99_yields",
    "ZkSaas.Properties.C99_protocols",
    "ZkSaas.Properties.C99_servers",
    "ZkSaas.Properties.C99_session",
    "ZkSaas.Properties.C99_works"
   ],
   "note": "C99_protocols and C99_servers give both directions of simulation for every class of faults, with queues, results and stuckness compared; C99_session is monotone in the builds; C99_works is an equivalence. The exact integers of the other properties are used (C98 covers overflow)."
  },
  {
   "property": "C100",
   "status": "proved",
   "theorems": [
    "ZkSaas.Properties.C100_unique",
    "ZkSaas.Properties.C100_coupling",
    "ZkSaas.Properties.C100_any",
    "ZkSaas.Properties.C100_ends",
    "ZkSaas.Properties.C100_session",
    "ZkSaas.Properties.C100_sessions",
    "ZkSaas.Properties.C100_production"
   ],
   "note": "All draws of the client are values of one finite uniform space (`Draws`); lengths beyond what a session uses do not matter (`deal_congr`). C60 gives a translation of that space that turns sessions on one assignment into equally observed ones on the other unless some share of r is zero, and such draws are counted with C36. Sessions that do not end are part of what is observed (`none`). The king is left out of what is sent, as in C60; C61 and C62 treat it."
  },
  {
   "property": "C101",
   "status": "proved",
   "theorems": [
    "ZkSaas.Properties.C101_ends",
    "ZkSaas.Properties.C101_delegation",
    "ZkSaas.Properties.C101_simulator",
    "ZkSaas.Properties.C101_sessions",
    "ZkSaas.Properties.C101_verifies"
   ],
   "note": "C101_delegation: a session on the blank assignment with an independent Groth16 prover; C101_simulator: the same with the trapdoor proof; C101_sessions: adaptively many; C101_verifies: simulated proofs verify. The king is left out of what is sent, as in C60; observing it breaks the claim (C76)."
  },
  {
   "property": "C102",
   "status": "proved",
   "theorems": [
    "ZkSaas.Properties.C102_ends",
    "ZkSaas.Properties.C102_told_apart",
    "ZkSaas.Properties.C102_not_close"
   ],
   "note": "C102_told_apart gives the test, C102_ends that sessions end with any tape for the program, C102_not_close the contrast with C100. Which sequence test_rng gives does not matter."
  },
  {
   "property": "C103",
   "status": "proved",
   "theorems": [
    "ZkSaas.Properties.C103_instance",
    "ZkSaas.Properties.C103_simulated",
    "ZkSaas.Properties.C103_ends",
    "ZkSaas.Properties.C103_told_apart"
   ],
   "note": "C103_instance (there is such a circuit, key and assignment for every satisfied constraint system), C103_simulated, C103_ends, C103_told_apart. All hypotheses of C101 and C102 on the field and the groups are discharged for BN254."
  },
  {
   "property": "C104",
   "status": "proved",
   "theorems": [
    "ZkSaas.Properties.C104_fft1_any",
    "ZkSaas.Properties.C104_fft2_any",
    "ZkSaas.Properties.C104_fft1",
    "ZkSaas.Properties.C104_fft2",
    "ZkSaas.Properties.C104_scale",
    "ZkSaas.Properties.C104_split"
   ],
   "note": "C104_fft1_any and C104_fft2_any count on every input, C104_fft1, C104_fft2 and C104_scale in closed form, C104_split compares with one machine. Additions and the one pow per layer are not counted; nor is the work of packing and unpacking, which is arkworks code."
  },
  {
   "property": "C105",
   "status": "proved",
   "theorems": [
    "ZkSaas.Properties.C105_learns",
    "ZkSaas.Properties.C105_told_apart",
    "ZkSaas.Properties.C105_bn254"
   ],
   "note": "C105_learns, C105_told_apart, C105_bn254. The claim is about C76 in terms of probabilities; only three of the five sums of the prover are computed."
  },
  {
   "property": "C106",
   "status": "proved",
   "theorems": [
    "ZkSaas.Properties.C106_weights",
    "ZkSaas.Properties.C106_helpers",
    "ZkSaas.Properties.C106_one",
    "ZkSaas.Properties.C106_two",
    "ZkSaas.Properties.C106_clients",
    "ZkSaas.Properties.C106_king",
    "ZkSaas.Properties.C106_servers"
   ],
   "note": "C106_weights, C106_helpers: who can cheat. C106_one, C106_two: errors that go unnoticed. C106_clients: servers have the power of the king of C78. C106_king, C106_servers: the equivalence. The shares of r are to be all zero or all nonzero, which by C36 fails for few draws only."
  },
  {
   "property": "C107",
   "status": "proved",
   "theorems": [
    "ZkSaas.Properties.C107_session",
    "ZkSaas.Properties.C107_honest",
    "ZkSaas.Properties.C107_d_msm_message",
    "ZkSaas.Properties.C107_fft_message",
    "ZkSaas.Properties.C107_deg_red_message",
    "ZkSaas.Properties.C107_adaptive"
   ],
   "note": "C107_session: any fixed errors. C107_adaptive: errors chosen by what the servers have of the session; a run of servers who choose as they go is one in which the errors are those for what they end up with. C107_d_msm_message, C107_fft_message, C107_deg_red_message: spoiled masks amount to errors in the messages. C107_honest: no errors, no change. The king runs the code, and messages have the right lengths. The opened proof may differ (C106). In debug builds errors that fail the check end the session; whether they do depends on the errors only (unpack_err, C88)."
  },
  {
   "property": "C108",
   "status": "proved",
   "theorems": [
    "ZkSaas.Properties.C108_d_fft",
    "ZkSaas.Properties.C108_d_ifft",
    "ZkSaas.Properties.C108_deg_red",
    "ZkSaas.Properties.C108_d_msm",
    "ZkSaas.Properties.C108_one",
    "ZkSaas.Properties.C108_second"
   ],
   "note": "For d_fft, d_ifft, deg_red and d_msm of a debug build with the masks the client deals, whatever is shared: the king panics and the others wait for ever under every schedule if the errors, weighted with the powers of the share generator, do not cancel in some column, and all servers finish otherwise. One wrong server is always noticed; for every server exactly one error cancels those of the others. C112 says the same of whole sessions."
  },
  {
   "property": "C109",
   "status": "proved",
   "theorems": [
    "ZkSaas.Properties.C109_decided",
    "ZkSaas.Properties.C109_each",
    "ZkSaas.Properties.C109_session",
    "ZkSaas.Properties.C109_ends",
    "ZkSaas.Properties.C109_sessions"
   ],
   "note": "The king follows the protocol and is not among the l servers. Strategies are functions from what the servers have to errors; Decided excludes strategies that refer to their own outcome, and is proved for strategies that choose by what is dealt (C109_decided)."
  },
  {
   "property": "C110",
   "status": "proved",
   "theorems": [
    "ZkSaas.Properties.C110_decided",
    "ZkSaas.Properties.C110_plays",
    "ZkSaas.Properties.C110_ends",
    "ZkSaas.Properties.C110_session"
   ],
   "note": "The messages are taken in the order of the record: those of the three concurrent transforms in the order of their streams. Servers that wait for the answer on a later stream before they send on an earlier one are covered by C113. The king follows the protocol and is not among the l servers."
  },
  {
   "property": "C111",
   "status": "proved",
   "theorems": [
    "ZkSaas.Properties.C111_sessions",
    "ZkSaas.Properties.C111_bn254",
    "ZkSaas.Properties.C111_ends"
   ],
   "note": "C110 over several sessions (by the hybrid argument of C99) and on the curves of C91. The king follows the protocol; the messages of the three concurrent transforms count in the order of their streams, C113 lifts this."
  },
  {
   "property": "C112",
   "status": "proved",
   "theorems": [
    "ZkSaas.Properties.C112_one",
    "ZkSaas.Properties.C112_session",
    "ZkSaas.Properties.C112_selective"
   ],
   "note": "Sessions of debug builds in which any servers add errors to any of their messages. 'Nobody finishes' is a statement about every reliable schedule, with the king's panic in one of three joined transforms while the others go on. The shares of r must be nonzero (with a zero share the code skips a round, C36), and the key aligned (a debug build cannot deal others)."
  },
  {
   "property": "C113",
   "status": "proved",
   "theorems": [
    "ZkSaas.Properties.C113_decided",
    "ZkSaas.Properties.C113_plays",
    "ZkSaas.Properties.C113_ends",
    "ZkSaas.Properties.C113_session",
    "ZkSaas.Properties.C113_covers",
    "ZkSaas.Properties.C113_sessions",
    "ZkSaas.Properties.C113_bn254",
    "ZkSaas.Properties.C113_bn254_ends"
   ],
   "note": "Removes the limit of C110 and C111 that concurrent messages are sent in the order of their streams. The cheating servers act together: what they add to a message is chosen in one turn, and a message of a later round is chosen after the answers of the earlier rounds (sending it earlier only means to choose it knowing less). The king follows the protocol and is not among the l servers."
  }
 ]
}
