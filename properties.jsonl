{"id": "C01", "title": "Scalar operations compute in Z/nZ and stay canonical", "statement": "For all operands, Add, Sub, Neg, Mul, Set, Clone, SetInt64, SetBytes, Zero, One leave the receiver in [0, n) and equal to the corresponding Z/nZ result, where n is the group order.", "quantifier": "all integer operands, including unreduced and negative ones", "why_tests_cant": "the operand domain is infinite; tests sample it", "anchors": ["ch/core/services/signatures/secp256k1/scalar.go:Add", "ch/core/services/signatures/secp256k1/scalar.go:Sub", "ch/core/services/signatures/secp256k1/scalar.go:Neg", "ch/core/services/signatures/secp256k1/scalar.go:Mul", "ch/core/services/signatures/secp256k1/scalar.go:SetInt64", "ch/core/services/signatures/secp256k1/scalar.go:SetBytes", "ch/core/services/signatures/secp256k1/scalar.go:Set"]}
{"id": "C02", "title": "Scalar division inverts multiplication and fails only on zero", "statement": "For every a and every reduced b ≠ 0, (a/b)*b = a and b*Inv(b) = 1 with canonical results; Div and Inv panic exactly when the divisor is 0.", "quantifier": "all scalars a, b", "why_tests_cant": "needs primality of the 256-bit group order; no test can sample all divisors", "anchors": ["ch/core/services/signatures/secp256k1/scalar.go:Div", "ch/core/services/signatures/secp256k1/scalar.go:Inv"]}
{"id": "C03", "title": "Scalar binary encoding round-trips and is canonical", "statement": "MarshalBinary always succeeds with 32 bytes; UnmarshalBinary of it gives back the scalar; UnmarshalBinary accepts exactly the 32-byte strings and yields the big-endian value mod n; two scalars are Equal iff their encodings are the same bytes.", "quantifier": "all scalars and all byte strings", "why_tests_cant": "2^256 values; length and padding corner cases", "anchors": ["ch/core/services/signatures/secp256k1/scalar.go:MarshalBinary", "ch/core/services/signatures/secp256k1/scalar.go:UnmarshalBinary", "ch/core/services/signatures/secp256k1/scalar.go:Equal"]}
{"id": "C04", "title": "Field element encoding and equality", "statement": "Bytes yields 32 bytes, SetBytes(Bytes(f)) is Equal to f, SetBytes(b) is the big-endian value of b mod q, and Equal holds iff the two values are congruent mod q.", "quantifier": "all integers backing a field element and all 32-byte strings", "why_tests_cant": "2^256 values", "anchors": ["ch/core/services/signatures/secp256k1/field.go:Bytes", "ch/core/services/signatures/secp256k1/field.go:SetBytes", "ch/core/services/signatures/secp256k1/field.go:Equal", "ch/core/services/signatures/secp256k1/field.go:modQ"]}
{"id": "C05", "title": "Square roots are found exactly when they exist", "statement": "The square root routine on v returns some s with s² ≡ v (mod q) if v is a square mod q, and nil otherwise.", "quantifier": "all field elements v", "why_tests_cant": "needs number theory over a 256-bit prime", "anchors": ["ch/core/services/signatures/secp256k1/field.go:maybeSqrtInField"]}
{"id": "C06", "title": "ValidPublicKey accepts exactly the affine curve points", "statement": "ValidPublicKey(P) is true iff P is a non-nil secp256k1 point whose coordinates satisfy y² = x³ + 7 mod q; in particular it is false for the identity.", "quantifier": "all coordinate pairs", "why_tests_cant": "2^512 coordinate pairs", "anchors": ["ch/core/services/signatures/secp256k1/point.go:ValidPublicKey", "siggy/src/base/base.go:chain_valid"]}
{"id": "C07", "title": "Compressed point encoding round-trips, and equal points have equal bytes", "statement": "For every curve point P, MarshalBinary succeeds with 33 bytes and UnmarshalBinary of them gives a point Equal to P; two curve points are Equal iff their encodings are equal byte strings; MarshalBinary fails on everything not on the curve, including the identity.", "quantifier": "all points", "why_tests_cant": "the member ordering of the tool relies on it for every key; needs uniqueness of square roots up to sign", "anchors": ["ch/core/services/signatures/secp256k1/point.go:MarshalBinary", "ch/core/services/signatures/secp256k1/point.go:UnmarshalBinary", "ch/core/services/signatures/secp256k1/point.go:Equal", "siggy/src/layout/member.go:load_and_sort"]}
{"id": "C08", "title": "Decoding a point accepts exactly the valid encodings", "statement": "UnmarshalBinary(buf) succeeds iff buf has 33 bytes, its last byte is 0 or 1, and the big-endian value of the first 32 bytes mod q is the x ordinate of a curve point; the decoded point is then on the curve with that x and the parity of y given by the last byte.", "quantifier": "all byte strings", "why_tests_cant": "input space of untrusted bytes is unbounded", "anchors": ["ch/core/services/signatures/secp256k1/point.go:UnmarshalBinary"]}
{"id": "C09", "title": "Uncompressed encoding round-trips", "statement": "For every curve point P, LongUnmarshal(LongMarshal(P)) succeeds and is Equal to P; LongUnmarshal succeeds only on 64-byte strings whose halves mod q satisfy the curve equation.", "quantifier": "all points, all byte strings", "why_tests_cant": "unbounded untrusted input", "anchors": ["ch/core/services/signatures/secp256k1/point.go:LongMarshal", "ch/core/services/signatures/secp256k1/point.go:LongUnmarshal", "ch/core/services/signatures/secp256k1/point.go:SetCoordinates"]}
{"id": "C10", "title": "Point operations form a commutative group", "statement": "Null, Add, Sub, Neg map curve points (or identity) to curve points (or identity) and satisfy the abelian group laws; Mul(s,P) is the s-fold sum of P and Mul(s,nil) is the s-fold sum of Base.", "quantifier": "all points and scalars", "why_tests_cant": "associativity over all triples cannot be sampled meaningfully", "anchors": ["ch/core/services/signatures/secp256k1/point.go:Add", "ch/core/services/signatures/secp256k1/point.go:Sub", "ch/core/services/signatures/secp256k1/point.go:Neg", "ch/core/services/signatures/secp256k1/point.go:Mul", "ch/core/services/signatures/secp256k1/point.go:Null", "ch/core/services/signatures/secp256k1/point.go:Base"]}
{"id": "C11", "title": "The group is cyclic of prime order n generated by Base", "statement": "Every curve point P satisfies n·P = identity and P = x·Base for exactly one scalar x in [0, n); so multiplying by a scalar only depends on it mod n, and each public key has exactly one secret key.", "quantifier": "all curve points", "why_tests_cant": "group order is a global fact about 2^256 points", "anchors": ["ch/core/services/signatures/secp256k1/point.go:Mul", "ch/core/services/signatures/secp256k1/point.go:Base", "ch/core/services/signatures/secp256k1/scalar.go:GroupOrder"]}
{"id": "C12", "title": "Embedding data in a point is lossless", "statement": "For all data of at most 29 bytes and every random stream, if Embed returns then the result is on the curve and Data returns exactly the data; more than 29 bytes panics.", "quantifier": "all data and all random streams", "why_tests_cant": "all byte strings and all random streams", "anchors": ["ch/core/services/signatures/secp256k1/point.go:Embed", "ch/core/services/signatures/secp256k1/point.go:Data", "ch/core/services/signatures/secp256k1/point.go:EmbedLen"]}
{"id": "C13", "title": "Random points and generated keys are valid", "statement": "Whatever the random stream, if Pick returns then the point is a valid curve point; if Generate returns then Public = Private·Base and it is a valid public key.", "quantifier": "all random streams", "why_tests_cant": "all random streams", "anchors": ["ch/core/services/signatures/secp256k1/point.go:Pick", "ch/core/services/signatures/secp256k1/point.go:Generate"]}
{"id": "C14", "title": "Every signature produced by Sign verifies", "statement": "For every private scalar ≠ 0, every message in [0, 2^256) and every nonce, Sign succeeds and Verify accepts the result under private·Base.", "quantifier": "all keys, messages, nonces and hash functions", "why_tests_cant": "2^768 combinations", "anchors": ["ch/core/services/signatures/ethschnorr/ethschnorr.go:Sign", "ch/core/services/signatures/ethschnorr/ethschnorr.go:Verify", "ch/core/services/signatures/ethschnorr/ethschnorr.go:ChallengeHash"]}
{"id": "C15", "title": "Verify accepts exactly the Schnorr relation and leaves the signature unchanged", "statement": "Verify(P,m,(a,s)) returns nil iff 0 ≤ s < n, P is on the curve, 0 ≤ m < 2^256 and the address of s·Base + e·P is a, where e is the challenge of (P,a,m); the call does not change s.", "quantifier": "all keys, messages and signatures", "why_tests_cant": "all inputs incl. adversarial signatures", "anchors": ["ch/core/services/signatures/ethschnorr/ethschnorr.go:Verify", "ch/core/services/signatures/ethschnorr/ethschnorr.go:ValidSignature"]}
{"id": "C16", "title": "Signatures are not malleable", "statement": "For a given key, message and commitment address there is at most one s that Verify accepts, unless two different commitment points share one 160-bit address.", "quantifier": "all keys, messages and pairs of signatures", "why_tests_cant": "ranges over adversarial signatures", "anchors": ["ch/core/services/signatures/ethschnorr/ethschnorr.go:Verify"]}
{"id": "C17", "title": "Reusing a nonce reveals the key", "statement": "From two accepted signatures under one key with the same commitment point and different challenges the private key is (s1-s2)/(e2-e1); conversely this extraction works for all such pairs (special soundness).", "quantifier": "all keys and pairs of accepted signatures", "why_tests_cant": "ranges over all adversarial pairs", "anchors": ["ch/core/services/signatures/ethschnorr/ethschnorr.go:Verify", "ch/core/services/signatures/ethschnorr/ethschnorr.go:Sign"]}
{"id": "C18", "title": "The challenge binds key, message and nonce", "statement": "For uint256 messages the bytes hashed for the challenge determine the public key, the message and the nonce address uniquely.", "quantifier": "all pairs of (key, message, address)", "why_tests_cant": "an injectivity claim over unbounded pairs", "anchors": ["ch/core/services/signatures/ethschnorr/ethschnorr.go:ChallengeHash"]}
{"id": "C19", "title": "Sign refuses messages Verify would refuse", "statement": "Sign returns an error for every message that is negative or has more than 256 bits, so a returned signature can always be verified.", "quantifier": "all integers as message", "why_tests_cant": "boundary plus unbounded range", "anchors": ["ch/core/services/signatures/ethschnorr/ethschnorr.go:ChallengeHash", "ch/core/services/signatures/ethschnorr/ethschnorr.go:Sign"]}
{"id": "C20", "title": "Collected partial signatures are always distinct, qualified and valid", "statement": "After any history of PartialSig and ProcessPartialSig calls the collected partials have pairwise distinct indices, each peer partial has an index in QUAL and below the number of participants and satisfies the public share equation.", "quantifier": "all call histories with arbitrary (adversarial) partial signatures", "why_tests_cant": "unbounded histories", "anchors": ["ch/core/services/signatures/ethdss/ethdss.go:ProcessPartialSig", "ch/core/services/signatures/ethdss/ethdss.go:PartialSig"]}
{"id": "C21", "title": "ProcessPartialSig rejects without effect", "statement": "ProcessPartialSig accepts iff the index is in range and in QUAL and new, the session id matches, the sender signature verifies and the share equation holds; when it rejects the collected set is unchanged.", "quantifier": "all DSS states and all partial signatures", "why_tests_cant": "all adversarial messages in all states", "anchors": ["ch/core/services/signatures/ethdss/ethdss.go:ProcessPartialSig"]}
{"id": "C22", "title": "Honest partial signatures are accepted by every honest participant", "statement": "If the participants hold shares consistent with common long-term and nonce commitments, a partial signature made by one is accepted by every other which has not yet got it.", "quantifier": "all participant sets, thresholds, polynomials, messages", "why_tests_cant": "all sizes", "anchors": ["ch/core/services/signatures/ethdss/ethdss.go:PartialSig", "ch/core/services/signatures/ethdss/ethdss.go:ProcessPartialSig"]}
{"id": "C23", "title": "Any threshold of valid partials yields a verifying signature", "statement": "With commitments to polynomials with at most T coefficients and consistent own share, whenever Signature returns a signature, whatever subset of peers contributed and in whatever order, Verify accepts it for the long-term public key and the message.", "quantifier": "all thresholds, participant counts, subsets, arrival orders, messages, shares", "why_tests_cant": "exponentially many subsets and orders", "anchors": ["ch/core/services/signatures/ethdss/ethdss.go:Signature", "ch/core/services/signatures/ethdss/ethdss.go:ProcessPartialSig"]}
{"id": "C24", "title": "All participants compute the same signature", "statement": "Two participants of one session that both obtain a signature obtain the same one, whatever partials each used.", "quantifier": "all pairs of histories", "why_tests_cant": "exponentially many subsets and orders", "anchors": ["ch/core/services/signatures/ethdss/ethdss.go:Signature"]}
{"id": "C25", "title": "Issuing a partial signature twice adds it once", "statement": "Calling PartialSig any number of times leaves exactly one own entry and returns the same share.", "quantifier": "all numbers of calls and interleavings with ProcessPartialSig", "why_tests_cant": "unbounded histories", "anchors": ["ch/core/services/signatures/ethdss/ethdss.go:PartialSig"]}
{"id": "C26", "title": "Fewer than T partials do not determine the signature", "statement": "Signature returns an error while fewer than T partials are collected; and for any T-1 partials and any candidate scalar there is a further partial with which the recovered scalar would be that candidate.", "quantifier": "all sets of T-1 partials and all candidates", "why_tests_cant": "an information-theoretic claim over all values", "anchors": ["ch/core/services/signatures/ethdss/ethdss.go:Signature", "ch/core/services/signatures/ethdss/ethdss.go:EnoughPartialSig"]}
{"id": "C27", "title": "Random bytes are never reused, skipped or over-drawn", "statement": "For any sequence of Fill calls of any lengths, the concatenated outputs are exactly the prefix of the concatenation of the first 1 MiB of successive freshly keyed streams.", "quantifier": "all call sequences and lengths, any key source", "why_tests_cant": "unbounded sequences, boundary at each MiB", "anchors": ["csprng/csprng/csprng.go:fill", "csprng/csprng/csprng.go:renew", "csprng/csprng/csprng.go:Fill"]}
{"id": "C28", "title": "The stream adaptor fills dst regardless of old contents and panics on a length mismatch", "statement": "XORKeyStream(dst,src) panics iff lengths differ, and otherwise dst is overwritten with the next random bytes independent of the old contents of dst and src.", "quantifier": "all buffers", "why_tests_cant": "all buffers and lengths", "anchors": ["csprng/csprng/csprng.go:XORKeyStream"]}
{"id": "C29", "title": "Wire objects survive conversion", "statement": "For each of the seven wire object kinds (deal, private share, VSS deal, justification, secret commits, complaint, reconstruct commits, partial signature), converting to the DTO and back gives an equal object whenever all its points are curve points; conversion to DTO fails exactly when some point is not.", "quantifier": "all wire objects", "why_tests_cant": "nested variable-length structures", "anchors": ["siggy/src/protocol/dkg_dto.go:deal_to_dto", "siggy/src/protocol/dkg_dto.go:dto_to_deal", "siggy/src/protocol/dkg_dto.go:justification_to_dto", "siggy/src/protocol/dkg_dto.go:commits_to_dto", "siggy/src/protocol/dkg_dto.go:compl_commits_to_dto", "siggy/src/protocol/dkg_dto.go:recons_commits_to_dto", "siggy/src/protocol/dss_dto.go:partsig_to_dto"]}
{"id": "C30", "title": "Saved long-term shares load back, and loading checks coverage", "statement": "Loading what was saved gives for every guest an equal share; loading fails if some guest has no share in the file.", "quantifier": "all maps of shares and guest sets", "why_tests_cant": "all maps", "anchors": ["siggy/src/signode/longterm_db.go:save_longterms", "siggy/src/signode/longterm_db.go:load_longterms", "siggy/src/signode/longterm_db.go:_verify_keys_subset"]}
{"id": "C31", "title": "All nodes agree on the member order", "statement": "For configurations listing the same public keys (pairwise distinct) in any order and under any file names, the resulting ordered list of public keys is the same.", "quantifier": "all lists and permutations, any unstable sort", "why_tests_cant": "factorially many permutations", "anchors": ["siggy/src/layout/member.go:load_and_sort"]}
{"id": "C32", "title": "Member lookup", "statement": "Every member index equals its position; find_member_index returns the position of the first member with that key and -1 iff there is none; map_pubfile_to_index maps each (distinct) file name to the index of the member loaded from it.", "quantifier": "all member lists", "why_tests_cant": "all lists", "anchors": ["siggy/src/layout/member.go:find_member_index", "siggy/src/layout/member.go:map_pubfile_to_index", "siggy/src/layout/member.go:load_and_sort"]}
{"id": "C33", "title": "Members are routed to their configured host", "statement": "In a well-formed configuration (each file name listed on exactly one host) each member index is mapped to the address of the host listing its file, and every member index has a mapping.", "quantifier": "all configurations", "why_tests_cant": "all sizes and groupings", "anchors": ["siggy/src/layout/layout.go:_compute_member_to_addr", "siggy/src/layout/layout.go:_conf_members_as_indices", "siggy/src/layout/layout.go:compute_layout"]}
{"id": "C34", "title": "Guests are exactly the configured members whose secret is present", "statement": "compute_guests contains index i iff some given secret s has s·Base equal to the public key of member i (first match); the entry carries a secret matching its public key, the right index, and the right address; secrets not configured are ignored.", "quantifier": "all layouts and secret lists", "why_tests_cant": "all sizes and duplicates", "anchors": ["siggy/src/layout/layout.go:compute_guests"]}
{"id": "C35", "title": "Configuration compilation and loading agree", "statement": "For every host list, loading the JSON form of the compiled configuration yields the labels, addresses and member lists in the original order and the concatenation of the member lists as public key files.", "quantifier": "all host lists", "why_tests_cant": "all sizes", "anchors": ["siggy/src/layout/config.go:load_config", "hostcomp/hostcomp.lisp:expand-config"]}
{"id": "C36", "title": "A host entry naming an unknown key file is refused", "statement": "If a host lists a file name which is not among the loaded public key files, computing the layout fails rather than treating it as another member.", "quantifier": "all configurations", "why_tests_cant": "all configurations", "anchors": ["siggy/src/layout/layout.go:_conf_members_as_indices"]}
{"id": "C37", "title": "Nothing passes the firewall before initialisation time", "statement": "No message received before drop_until is ever output.", "quantifier": "all histories of messages, allowances and clock", "why_tests_cant": "all interleavings", "anchors": ["siggy/src/protocol/firewall.go:_fw_process", "siggy/src/protocol/firewall.go:make_fw"]}
{"id": "C38", "title": "The firewall denies by default and allowances are isolated", "statement": "A message is output only if an allowance for exactly its protocol, recipient and run id had been set before, and it was received at or after its buffer time and before its stop.", "quantifier": "all histories", "why_tests_cant": "all interleavings", "anchors": ["siggy/src/protocol/firewall.go:_fw_process", "siggy/src/protocol/firewall.go:fw_set_allowance"]}
{"id": "C39", "title": "Buffered messages are flushed once, in order, before newer ones", "statement": "For each run the output is the messages received while buffering (at most the first 2048) followed by those received while forwarding, in arrival order, each once.", "quantifier": "all histories", "why_tests_cant": "all interleavings, buffer boundary", "anchors": ["siggy/src/protocol/firewall.go:_fw_flush", "siggy/src/protocol/firewall.go:_fw_process"]}
{"id": "C40", "title": "Revocation is final and leaves nothing behind", "statement": "After the stop of an allowance no message for it is output, and no state, allowance or buffer for it remains.", "quantifier": "all histories", "why_tests_cant": "all interleavings", "anchors": ["siggy/src/protocol/firewall.go:_fw_state_step"]}
{"id": "C41", "title": "Network messages cannot address unknown recipients or trigger run deletion", "statement": "Every message output by the firewall due to network input has a protocol code in range and a local recipient; in particular no network input can produce the internal delete-run signal.", "quantifier": "all messages and histories", "why_tests_cant": "untrusted inputs", "anchors": ["siggy/src/protocol/firewall.go:_fw_message_valid", "siggy/src/protocol/prot.go:_receive_msg", "siggy/src/protocol/prot.go:_delete_run"]}
{"id": "C42", "title": "A message is processed only during its own stage and at most once", "statement": "In every run, each delivered message is processed at most once and only when the run is in the stage equal to its Op and not in the pause after that stage.", "quantifier": "all schedules of timer steps and arrivals", "why_tests_cant": "all interleavings", "anchors": ["siggy/src/protocol/prot.go:_run_timed_steps", "siggy/src/protocol/prot.go:_run_incoming_queue_consumer"]}
{"id": "C43", "title": "Early messages are kept in order, late ones are dropped", "statement": "Messages arriving before their stage are handed to processing exactly when the stage starts, after its step, in arrival order; messages arriving after their stage (or in its pause) are never processed.", "quantifier": "all schedules", "why_tests_cant": "all interleavings", "anchors": ["siggy/src/protocol/prot.go:_run_incoming_queue_consumer", "siggy/src/protocol/prot.go:_run_timed_steps"]}
{"id": "C44", "title": "Abandoning a run is final", "statement": "Once a run is abandoned no stage step and no message processor is invoked for it again, although it still advances and terminates.", "quantifier": "all schedules", "why_tests_cant": "all interleavings", "anchors": ["siggy/src/protocol/prot.go:abandon", "siggy/src/protocol/prot.go:_process_msg", "siggy/src/protocol/prot.go:_run_timed_steps"]}
{"id": "C45", "title": "Only well-typed messages with a consistent sender are processed", "statement": "A processor is invoked only with an object unmarshalled from a DTO of the type registered for the stage, with a sender index in range that equals the index inside the object.", "quantifier": "all messages", "why_tests_cant": "untrusted inputs", "anchors": ["siggy/src/protocol/prot.go:_process_msg", "siggy/src/protocol/dkg.go:_dkg_deal_v", "siggy/src/protocol/dss.go:dss_partsig_v"]}
{"id": "C46", "title": "Outgoing messages never leave before their stage", "statement": "A message sent with Op later than the current stage is transmitted when that stage starts, in sending order and once; broadcast and multicast never address the sender.", "quantifier": "all schedules and send sequences", "why_tests_cant": "all interleavings", "anchors": ["siggy/src/protocol/prot.go:send", "siggy/src/protocol/prot.go:_flush_snd_buf", "siggy/src/protocol/prot.go:broadcast", "siggy/src/protocol/prot.go:multicast"]}
{"id": "C47", "title": "Every run executes all its stages in order and terminates", "statement": "A run enters stages 0..last in order, each once; cleanup runs exactly once after the last; terminated becomes true only then and stays true.", "quantifier": "all schedules", "why_tests_cant": "all interleavings", "anchors": ["siggy/src/protocol/prot.go:_run_timed_steps"]}
{"id": "C48", "title": "Termination observers are notified exactly once", "statement": "Every observer registered for a run gets exactly one notification after the run terminates, whether it registers before, during or after termination, and sending it never blocks.", "quantifier": "all interleavings of registrations and the run (while the run is still registered)", "why_tests_cant": "all interleavings", "anchors": ["siggy/src/protocol/prot.go:obs_term", "siggy/src/protocol/prot.go:_update_term_observers"]}
{"id": "C49", "title": "At most one live run object and one stepping thread per run id", "statement": "Under any interleaving of callers and message arrivals, between deletions exactly one run is created per (protocol, guest, run id), with exactly one stepping thread.", "quantifier": "all interleavings", "why_tests_cant": "all interleavings", "anchors": ["siggy/src/protocol/prot.go:ensure_active_run", "siggy/src/protocol/prot.go:_ensure_run", "siggy/src/protocol/prot.go:_delete_run"]}
{"id": "C50", "title": "Finished runs are removed", "statement": "After a run has terminated and its firewall allowance has stopped, the clean-up signal removes the run from the registry, for both protocols.", "quantifier": "all runs of both protocols", "why_tests_cant": "needs the effect of every protocol code", "anchors": ["siggy/src/signode/runner.go:_runner_cleanup_run", "siggy/src/protocol/prot.go:_receive_msg", "siggy/src/protocol/prot.go:_delete_run"]}
{"id": "C51", "title": "A removed run is not resurrected by stragglers", "statement": "Once the clean-up signal for a run has been processed, no earlier received network message can recreate the run.", "quantifier": "all histories of messages", "why_tests_cant": "all interleavings", "anchors": ["siggy/src/signode/runner.go:_runner_cleanup_run", "siggy/src/protocol/firewall.go:_fw_state_step", "siggy/src/protocol/prot.go:_run_incoming_queue_consumer"]}
{"id": "C52", "title": "Outputs are delivered once per run", "statement": "pop_output returns the most recently pushed output for exactly that protocol, guest and run id, and a second pop without another push returns none.", "quantifier": "all sequences of push and pop", "why_tests_cant": "all histories", "anchors": ["siggy/src/protocol/prot.go:push_output", "siggy/src/protocol/prot.go:pop_output"]}
{"id": "C53", "title": "Outgoing queue is bounded, ordered, at most once", "statement": "Sending never blocks; at most 1000 messages wait per peer; the messages delivered to a peer are a subsequence, in order, of those sent.", "quantifier": "all schedules of sends, connection events and call results", "why_tests_cant": "all interleavings", "anchors": ["siggy/src/net/net_caller.go:try_send", "siggy/src/net/net_caller.go:_run_outgoing_queue_consumer"]}
{"id": "C54", "title": "A message whose transmission failed is retried after reconnecting", "statement": "If a call fails, the message of that call is the first to be transmitted on the next connection.", "quantifier": "all schedules", "why_tests_cant": "all interleavings", "anchors": ["siggy/src/net/net_caller.go:_run_outgoing_queue_consumer"]}
{"id": "C55", "title": "The connector publishes one connection, preceded by at most one failure notice, with bounded back-off", "statement": "Whatever the dial results, each connector publishes at most one nil, then at most one connection and then ends; its delays never decrease and never exceed five minutes.", "quantifier": "all sequences of dial results", "why_tests_cant": "unbounded sequences", "anchors": ["siggy/src/net/net_caller.go:_run_connector", "siggy/src/net/net_caller.go:_try_connect", "siggy/src/net/net_caller.go:_min"]}
{"id": "C56", "title": "Stages do not drift and the firewall window covers the run", "statement": "If per-stage work and pause fit in the stage timeout then stage k ends exactly at start plus the sum of the first k+1 timeouts, whatever the work times; the firewall allowance stops only after the run ends.", "quantifier": "all work durations", "why_tests_cant": "all durations", "anchors": ["siggy/src/protocol/prot.go:_run_timed_steps", "siggy/src/protocol/prot.go:protocol_timeout", "siggy/src/signode/runner.go:_runner_run_guest"]}
{"id": "C57", "title": "Long-term key generation only returns usable keys", "statement": "If long-term generation returns, then for every guest the public key is valid for on-chain verification and every member is in QUAL; otherwise it retries or panics.", "quantifier": "all sequences of DKG outcomes", "why_tests_cant": "unbounded retries", "anchors": ["siggy/src/signode/run_longterm.go:_longterm_loop", "siggy/src/signode/run_longterm.go:_longterm"]}
{"id": "C58", "title": "Standard input is consumed as complete triples", "statement": "For any token sequence, runs are started exactly for the consecutive complete triples, in order, and an incomplete last triple starts nothing; with _ as time the default start is used.", "quantifier": "all token sequences", "why_tests_cant": "unbounded input", "anchors": ["siggy/src/signode/run_sig.go:run_sigs", "siggy/src/signode/run_sig.go:_run_sig1"]}
{"id": "C59", "title": "A signed document is the integer written on input", "statement": "The document signed for hex text d is the non-negative integer denoted by d: a signature produced for text d verifies for the integer d denotes and for no other integer with a different challenge.", "quantifier": "all document texts", "why_tests_cant": "unbounded inputs including signs", "anchors": ["siggy/src/signode/run_sig.go:_run_sig1", "ch/core/services/signatures/ethschnorr/ethschnorr.go:ChallengeHash"]}
{"id": "C60", "title": "No network message can crash the node", "statement": "Handling any decodable network message, in any state, never panics.", "quantifier": "all messages and states", "why_tests_cant": "untrusted inputs incl. nil inner pointers", "anchors": ["siggy/src/protocol/prot.go:_process_msg", "siggy/src/protocol/dkg.go:_dkg_response_v", "ch/core/services/signatures/ethdss/ethdss.go:ProcessPartialSig", "ch/core/services/signatures/ethdss/ethdss.go:findPub"]}
{"id": "C61", "title": "Public key text and database forms round-trip", "statement": "For every 33-byte key, SetFromHex(String()), UnmarshalText(MarshalText()) and Scan(Value()) give back the key; parsing succeeds iff the text is 0x followed by 66 hex digits.", "quantifier": "all keys and all strings", "why_tests_cant": "unbounded strings", "anchors": ["ch/core/services/signatures/secp256k1/public_key.go:String", "ch/core/services/signatures/secp256k1/public_key.go:SetFromHex", "ch/core/services/signatures/secp256k1/public_key.go:UnmarshalText", "ch/core/services/signatures/secp256k1/public_key.go:Scan", "ch/core/services/signatures/secp256k1/public_key.go:NewPublicKeyFromBytes"]}
{"id": "C62", "title": "Public key address", "statement": "For every key that decodes to a point, Address is the Ethereum address of that point; for every other key it is the zero address; the all-zero key never decodes.", "quantifier": "all 33-byte keys", "why_tests_cant": "2^264 keys", "anchors": ["ch/core/services/signatures/secp256k1/public_key.go:Address", "ch/core/services/signatures/secp256k1/public_key.go:Hash", "ch/core/services/signatures/secp256k1/public_key.go:IsZero", "ch/core/services/signatures/secp256k1/point.go:EthereumAddress"]}
{"id": "C63", "title": "Listening addresses are deduplicated", "statement": "unique returns each input string exactly once and nothing else, in some order.", "quantifier": "all string lists", "why_tests_cant": "all lists, all map orders", "anchors": ["siggy/src/util/prim.go:unique", "siggy/src/protocol/prot.go:_start_listeners1"]}
{"id": "C64", "title": "Generated key files identify their owner", "statement": "For every generated pair, loading both files gives a secret whose public key is found in any member list containing that public key file.", "quantifier": "all secrets ≠ 0", "why_tests_cant": "2^256 secrets", "anchors": ["siggy/src/keygen/keygen.go:main", "siggy/src/base/base.go:pick_secret", "siggy/src/base/base.go:compute_pub", "siggy/src/layout/layout.go:compute_guests"]}
{"id": "C65", "title": "A signature printed by the tool verifies", "statement": "Every signature pushed as the output of a signing run verifies under the long-term public key for the registered document.", "quantifier": "all runs, thresholds and stored shares", "why_tests_cant": "all thresholds, files and adversarial partials", "anchors": ["siggy/src/protocol/dss.go:dss_st_final", "siggy/src/protocol/dss.go:st_init"]}
{"id": "C66", "title": "A run signs exactly the document registered for it", "statement": "Under any interleaving of registrations for other guests and run ids, the document used by a run is the one last registered for its guest and run id.", "quantifier": "all sequences of register/deregister", "why_tests_cant": "all histories", "anchors": ["siggy/src/protocol/dss.go:dss_register_doc", "siggy/src/protocol/dss.go:dss_deregister_doc", "siggy/src/protocol/dss.go:_doc_for"]}
{"id": "C67", "title": "RepresentsScalar is true exactly on the scalar range", "statement": "RepresentsScalar(i) is true iff 0 ≤ i < n.", "quantifier": "all integers", "why_tests_cant": "unbounded range", "anchors": ["ch/core/services/signatures/secp256k1/scalar.go:RepresentsScalar"]}
{"id": "C68", "title": "Firewall observers never block the firewall", "statement": "The firewall state thread performs at most as many sends on its observer channel as its capacity, so it never blocks holding the lock, even if nobody reads.", "quantifier": "all schedules", "why_tests_cant": "all interleavings", "anchors": ["siggy/src/protocol/firewall.go:_fw_state_step", "siggy/src/protocol/firewall.go:fw_set_allowance"]}
{"id": "C69", "title": "Scalar operations only change their receiver, even when aliased", "statement": "For any assignment of receiver and operands to variables, including receiver = operand, Add/Sub/Mul/Neg set the receiver to the result computed from the old operand values and change no other variable.", "quantifier": "all aliasing patterns and values", "why_tests_cant": "all aliasing patterns with all values", "anchors": ["ch/core/services/signatures/secp256k1/scalar.go:Add", "ch/core/services/signatures/secp256k1/scalar.go:Sub", "ch/core/services/signatures/secp256k1/scalar.go:Mul", "ch/core/services/signatures/secp256k1/scalar.go:Neg"]}
{"id": "C70", "title": "Stage tables and op codes agree", "statement": "In both protocols the op code with which each kind of message is sent is the index of the stage whose registered DTO type is the type of the sent DTO and which has a processor.", "quantifier": "all message kinds of both protocols", "why_tests_cant": "relates two tables across files for every kind", "anchors": ["siggy/src/protocol/dkg.go:init", "siggy/src/protocol/dss.go:dss_stages", "siggy/src/protocol/prot.go:ps"]}
{"id": "C71", "title": "A request whose run id is in use waits for ever", "statement": "A runner that asks the firewall for an allowance while one exists for the same protocol, guest and run id never gets past waiting for the firewall, so the tool never returns from reading standard input.", "quantifier": "all histories", "why_tests_cant": "all interleavings", "anchors": ["siggy/src/protocol/firewall.go:fw_set_allowance", "siggy/src/signode/runner.go:_runner_run_guest", "siggy/src/signode/run_sig.go:run_sigs"]}
{"id": "C72", "title": "Enough honest signers always get a signature", "statement": "A signing run that is not given up before the partial signatures are exchanged and gets partial signatures of at least T-1 other honest qualified members in time puts out a signature that verifies, whatever else it receives.", "quantifier": "all groups, documents, thresholds, histories and further messages", "why_tests_cant": "all histories of several nodes with adversarial messages", "anchors": ["siggy/src/protocol/dss.go:st_init", "siggy/src/protocol/dss.go:st_partsig", "siggy/src/protocol/dss.go:pr_partsig", "siggy/src/protocol/dss.go:dss_st_final", "siggy/src/protocol/prot.go:_run_timed_steps", "siggy/src/protocol/prot.go:_process_msg"]}
{"id": "C73", "title": "All honest signers of a run put out the same signature", "statement": "Any two signatures put out by honest members in runs of one group with the same nonce polynomial are equal, whatever each member received.", "quantifier": "all groups and histories", "why_tests_cant": "all pairs of histories with adversarial messages", "anchors": ["siggy/src/protocol/dss.go:st_partsig", "siggy/src/protocol/dss.go:pr_partsig", "siggy/src/protocol/dss.go:dss_st_final"]}
{"id": "C74", "title": "Run identifiers tell requests and attempts apart", "statement": "Two signing requests have the same run identifier only if they have the same namespace and start in the same millisecond, two attempts at long-term keys only if they have the same start and number, and a request never has the identifier of an attempt.", "quantifier": "all namespaces, times and attempts", "why_tests_cant": "unbounded strings and times", "anchors": ["siggy/src/signode/runner.go:_runner_run_id", "siggy/src/signode/run_longterm.go:_longterm_loop", "siggy/src/signode/run_sig.go:_run_sig"]}
{"id": "C75", "title": "A request prints the signatures of its own runs on its own document", "statement": "Every request that ends has printed one line per guest, each from a run for this guest, run identifier and document that saw only messages for it, and every signature printed verifies for the document of the request.", "quantifier": "all histories of the whole program with any number of requests", "why_tests_cant": "all interleavings of all goroutines with all messages", "anchors": ["siggy/src/signode/run_sig.go:_run_sig", "siggy/src/signode/runner.go:run_dss", "siggy/src/protocol/prot.go:_run_incoming_queue_consumer", "siggy/src/protocol/prot.go:ensure_active_run", "siggy/src/protocol/dss.go:_doc_for"]}
{"id": "C76", "title": "No history makes the signing program panic", "statement": "Whatever arrives from the network and however its goroutines interleave, the program does not panic while it signs.", "quantifier": "all histories of the whole program", "why_tests_cant": "all interleavings of all goroutines with all messages", "anchors": ["siggy/src/protocol/prot.go:_process_msg", "siggy/src/protocol/prot.go:_run_incoming_queue_consumer", "siggy/src/signode/runner.go:_runner_run_guest", "siggy/src/signode/run_sig.go:_run_sig"]}
{"id": "C77", "title": "An ended request leaves nothing behind in the tables", "statement": "At every moment the tables of documents and of outputs hold entries only for requests that have not ended, and the document of a request is there while its runs go on.", "quantifier": "all histories of the whole program", "why_tests_cant": "all interleavings", "anchors": ["siggy/src/protocol/dss.go:dss_register_doc", "siggy/src/protocol/dss.go:dss_deregister_doc", "siggy/src/protocol/prot.go:push_output", "siggy/src/protocol/prot.go:pop_output", "siggy/src/protocol/dkg.go:step_final"]}
{"id": "C78", "title": "A node does not speak early", "statement": "At every moment a protocol run exists, and a message of it has been sent, only for a request whose start time has been reached, whatever the network has sent before.", "quantifier": "all histories of the whole program", "why_tests_cant": "all interleavings of all goroutines with all messages", "anchors": ["siggy/src/signode/runner.go:_runner_run_guest", "siggy/src/protocol/firewall.go:_fw_process", "siggy/src/protocol/firewall.go:_fw_state_step", "siggy/src/protocol/prot.go:_run_incoming_queue_consumer", "siggy/src/protocol/prot.go:ensure_active_run"]}
{"id": "C79", "title": "What an honest peer sends is taken", "statement": "If a node has sent a message for a request and the clock of the recipient, which has the same request with its allowance set, is at most max_drift behind, then the firewall of the recipient buffers or forwards the message when it arrives.", "quantifier": "all pairs of histories of two processes", "why_tests_cant": "relates all histories of two processes", "anchors": ["siggy/src/signode/runner.go:_runner_run_guest", "siggy/src/protocol/firewall.go:_fw_process", "siggy/src/protocol/firewall.go:_fw_state_step", "siggy/src/signode/signode.go:main"]}
{"id": "C80", "title": "All processes print the same signature", "statement": "All signatures that any two processes with the keys of one group print for one request are equal and verify for its document, whatever each of them received, if the nonce shares that the runs for it got belong to one polynomial.", "quantifier": "all pairs of histories of whole programs", "why_tests_cant": "all pairs of histories with adversarial messages", "anchors": ["siggy/src/signode/run_sig.go:_run_sig", "siggy/src/protocol/dss.go:st_partsig", "siggy/src/protocol/dss.go:pr_partsig", "siggy/src/protocol/dss.go:dss_st_final"]}
{"id": "C81", "title": "A request with enough honest signers prints a signature", "statement": "If a request has ended, its run for a guest was not given up before the partial signatures and was given the partial signatures that at least T-1 guests of other processes of the group sent, then the line printed for this guest is a signature that verifies.", "quantifier": "all histories of the whole programs", "why_tests_cant": "all histories of several programs with adversarial messages", "anchors": ["siggy/src/signode/run_sig.go:_run_sig", "siggy/src/protocol/prot.go:_run_timed_steps", "siggy/src/protocol/dss.go:pr_partsig", "siggy/src/protocol/dss.go:dss_st_final", "siggy/src/protocol/prot.go:push_output", "siggy/src/protocol/prot.go:pop_output"]}
{"id": "C82", "title": "Every request ends", "statement": "If requests have different run identifiers, only finitely many steps are left at any moment, a state in which no step is left has every request ended with a line for each guest and no run, allowance, queued message or document, and such a state can always be reached unless some message was incomplete.", "quantifier": "all histories of the whole program", "why_tests_cant": "termination and deadlock freedom over all interleavings", "anchors": ["siggy/src/signode/run_sig.go:_run_sig", "siggy/src/signode/runner.go:_runner_run_guest", "siggy/src/protocol/firewall.go:_fw_state_step", "siggy/src/protocol/prot.go:_run_timed_steps", "siggy/src/protocol/prot.go:_run_incoming_queue_consumer", "siggy/src/protocol/prot.go:obs_term"]}
{"id": "C83", "title": "The tool starts exactly when its files fit together", "statement": "With a configuration compiled from a host list, the start succeeds if and only if every listed file holds a public key and every secret file a secret, threshold and time can be read, the generator accepts the keys, the addresses can be used and each guest has a long-term share in the mode that signs; the guests are the members whose secrets are held.", "quantifier": "all command lines, host lists and directories", "why_tests_cant": "unbounded inputs", "anchors": ["siggy/src/signode/signode.go:main", "siggy/src/signode/signode.go:_load_secrets", "siggy/src/protocol/prot.go:protocol_start", "siggy/src/protocol/prot.go:_verify_config_suits_make_kyber_dat", "siggy/src/signode/longterm_db.go:load_longterms"]}
{"id": "C84", "title": "Messages to a member go where its process listens", "statement": "With a configuration compiled from a host list, every guest has a queue to every member, and what it sends to a member that is a guest of another process started from the same hosts and keys goes to an address on which that process listens.", "quantifier": "all pairs of started processes", "why_tests_cant": "relates all pairs of starts", "anchors": ["siggy/src/net/net_caller.go:start_net_caller", "siggy/src/net/net_caller.go:try_send", "siggy/src/net/net_listener.go:start_listeners", "siggy/src/protocol/prot.go:_start_net_callers", "siggy/src/protocol/prot.go:_start_listeners1"]}
{"id": "C85", "title": "Processes started from the same files sign together", "statement": "Processes started with the same keys, threshold, time and shares of one long-term key make the same job of each request, take each other's messages, and all signatures they print for it are equal and verify, whatever else arrives.", "quantifier": "all pairs of started processes and their histories", "why_tests_cant": "relates all histories of two processes from their command lines", "anchors": ["siggy/src/signode/signode.go:main", "siggy/src/signode/run_sig.go:_run_sig1", "siggy/src/signode/run_sig.go:_run_sig", "siggy/src/signode/runner.go:_runner_run_guest"]}
{"id": "C86", "title": "What the tool saves as long-term keys", "statement": "When the tool has written a file of long-term keys, it holds for each guest the share that the generator of a finished key-generation run gave, all in one attempt, with no member missing from QUAL and each public key on the curve; the attempts before it were complete too but had a public key that is not on the curve.", "quantifier": "all histories of the whole program that makes keys", "why_tests_cant": "all interleavings of all goroutines with all messages", "anchors": ["siggy/src/signode/run_longterm.go:run_longterm", "siggy/src/signode/run_longterm.go:_longterm_loop", "siggy/src/signode/run_longterm.go:_longterm", "siggy/src/signode/runner.go:run_dkg", "siggy/src/protocol/dkg.go:step_final", "siggy/src/signode/longterm_db.go:save_longterms"]}
{"id": "C87", "title": "When the tool that makes long-term keys gives up", "statement": "On messages without nil pointers the tool that makes long-term keys panics only where it takes the output of a run that has left no key or whose QUAL is short of members, and there it always does, or at the end of an attempt in which a share has no commitments or one off the curve.", "quantifier": "all histories of the whole program that makes keys", "why_tests_cant": "all interleavings of all goroutines with all complete messages", "anchors": ["siggy/src/signode/run_longterm.go:run_longterm", "siggy/src/signode/run_longterm.go:_longterm", "siggy/src/signode/runner.go:_runner_run_guest", "siggy/src/protocol/prot.go:push_output", "siggy/src/protocol/prot.go:pop_output"]}
{"id": "C88", "title": "From making long-term keys to signing", "statement": "Processes whose attempts go together save shares of the same attempt, the first whose key is not zero; each can be started again with its file, has the same members and guests, and all signatures that they then print for a request are equal and verify under the key that was made.", "quantifier": "all pairs of processes, from their command lines", "why_tests_cant": "relates all histories of two processes over two starts", "anchors": ["siggy/src/signode/signode.go:main", "siggy/src/signode/run_longterm.go:run_longterm", "siggy/src/signode/longterm_db.go:save_longterms", "siggy/src/signode/longterm_db.go:load_longterms", "siggy/src/signode/run_sig.go:_run_sig"]}
{"id": "C89", "title": "Standard input as words", "statement": "The requests that are started are the triples of words of the text on standard input, in order and whatever the white space between them; what has been read up to white space is not affected by what follows; a word of more than 65535 bytes ends the reading, so that no later request is read.", "quantifier": "all texts", "why_tests_cant": "for every sequence of characters", "anchors": ["siggy/src/signode/run_sig.go:run_sigs"]}
{"id": "C90", "title": "Files of keygen", "statement": "However many runs of keygen there are at a time and whatever other programs create in between, a run that has ended has left the bytes of its two keys in two new files that no other run uses, and no file that was there has changed; a process that is then started with this directory loads exactly the secrets that were drawn and has the members with the written public keys as guests.", "quantifier": "all histories of all numbers of runs", "why_tests_cant": "invariant over all interleavings", "anchors": ["siggy/src/keygen/keygen.go:main", "siggy/src/util/file.go:save_to_temp", "siggy/src/signode/signode.go:_load_secrets"]}
{"id": "C91", "title": "Processes that are not late sign", "statement": "In a process in which every section runs within the millisecond in which it can, a request that is read before its start has ended 650 ms after it, whatever arrives; a message that arrives after the start and before the end of its stage is given to the run in time; every message is sent 5 ms after the stage before its own has ended and at no other time. If processes with at least T members among their guests sign a document together for the same start, no run is abandoned before the partial signatures are exchanged, all members are in QUAL and each partial signature arrives less than 70 ms after it was sent, then all processes print one and the same signature for all guests, and it verifies.", "quantifier": "all histories of all numbers of processes", "why_tests_cant": "the schedule of every run is an invariant of the histories without delay; then C80 and C81", "anchors": ["siggy/src/signode/run_sig.go:_run_sig", "siggy/src/signode/runner.go:_runner_run_guest", "siggy/src/protocol/firewall.go:_fw_state_step", "siggy/src/protocol/prot.go:_run_timed_steps", "siggy/src/protocol/prot.go:_run_incoming_queue_consumer", "siggy/src/protocol/dss.go:st_partsig", "siggy/src/protocol/dss.go:pr_partsig"]}
{"id": "C92", "title": "Every attempt at long-term keys ends", "statement": "As long as the tool that makes long-term keys has not written its file, it never comes to wait for ever: whatever has arrived and whatever has not, it gets by itself, as time passes and in a bounded number of steps, to a moment at which the file is written, or the next attempt begins, or it panics because the run of a guest has left no key, a QUAL short of members, or a share that cannot be written.", "quantifier": "all histories", "why_tests_cant": "a measure that every step makes smaller, and who waits for whom as an invariant", "anchors": ["siggy/src/signode/run_longterm.go:run_longterm", "siggy/src/signode/runner.go:_runner_run", "siggy/src/signode/runner.go:_runner_run_guest", "siggy/src/protocol/prot.go:obs_term", "siggy/src/protocol/prot.go:_update_term_observers"]}
{"id": "C93", "title": "What the signing tool prints", "statement": "Standard output is an interleaving of the lines of the requests and nothing else: for each request, once its runs have ended, the line that says so, then one line per guest in the order in which they are printed; the line of a signature determines the signature and cannot be taken for one of the other lines.", "quantifier": "all histories and all signatures", "why_tests_cant": "invariant over all interleavings of requests; injectivity of the printed form", "anchors": ["siggy/src/signode/run_sig.go:_run_sig"]}
{"id": "C94", "title": "Scalars and points on streams", "statement": "Any sequence of scalars and of curve points written with MarshalTo is read back by UnmarshalFrom, whatever pieces the reader delivers and whatever follows, with 32 bytes for each scalar and 33 for each point; a stream that fails earlier gives an error, a point off the curve is not written, and the returned count is the number of bytes written.", "quantifier": "all sequences, readers and writers", "why_tests_cant": "all ways of cutting the bytes into pieces", "anchors": ["ch/core/services/signatures/secp256k1/scalar.go:MarshalTo", "ch/core/services/signatures/secp256k1/scalar.go:UnmarshalFrom", "ch/core/services/signatures/secp256k1/point.go:MarshalTo", "ch/core/services/signatures/secp256k1/point.go:UnmarshalFrom"]}
{"id": "C95", "title": "New of the suite makes scalars and points", "statement": "New returns a new scalar for the type kyber.Scalar and a new point for kyber.Point.", "quantifier": "both types", "why_tests_cant": "the types compared with are computed from nil interface values", "anchors": ["ch/core/services/signatures/secp256k1/suite.go:New"]}
{"id": "C96", "title": "Point operations only change their receiver, even when aliased", "statement": "Whatever methods of points are called on whatever objects, with a receiver that may also be an operand, each call assigns to its receiver the result of the group operation on the values that the operands had, and leaves the values of all other points alone. Equal and MarshalBinary tell the values apart. Only after a failed UnmarshalBinary the value of its receiver is not defined.", "quantifier": "all sequences of method calls on all objects, all aliasings", "why_tests_cant": "methods write coordinates in place or replace them one after the other, so an alias can be read half-way; there are too many sequences of calls", "anchors": ["ch/core/services/signatures/secp256k1/point.go:Add", "ch/core/services/signatures/secp256k1/point.go:Sub", "ch/core/services/signatures/secp256k1/point.go:Neg", "ch/core/services/signatures/secp256k1/point.go:Mul", "ch/core/services/signatures/secp256k1/point.go:Set", "ch/core/services/signatures/secp256k1/point.go:Clone", "ch/core/services/signatures/secp256k1/point.go:Null", "ch/core/services/signatures/secp256k1/point.go:UnmarshalBinary"]}
{"id": "C97", "title": "Text forms, sizes and conversions", "statement": "Reduced scalars, and points with reduced coordinates, print the same exactly if they are equal. Every encoding has the length that ScalarLen and PointLen tell. The hash of a reduced scalar is its encoding. A point of the curve is got back from its coordinates. The type tests change a scalar only to an equal reduced one.", "quantifier": "all scalars, points, byte strings and values", "why_tests_cant": "equality of all pairs of values", "anchors": ["ch/core/services/signatures/secp256k1/scalar.go:String", "ch/core/services/signatures/secp256k1/scalar.go:ScalarToHash", "ch/core/services/signatures/secp256k1/scalar.go:IsSecp256k1Scalar", "ch/core/services/signatures/secp256k1/point.go:String", "ch/core/services/signatures/secp256k1/point.go:Coordinates", "ch/core/services/signatures/secp256k1/point.go:MarshalSize", "ch/core/services/signatures/secp256k1/field.go:String", "ch/core/services/signatures/secp256k1/public_key.go:Set"]}
{"id": "C98", "title": "Processes that are not late make keys together on time", "statement": "The attempts of started processes begin 1525 ms apart, the first 55 ms after the time up to which messages are dropped. In a process in which every section runs within the millisecond in which it can, each attempt is over 525 ms after it began, whatever arrives: the file is written or the next attempt begins. A message of an attempt is sent 5 ms after the end of the stage before its own and at no other time, and if it arrives at another such process less than 70 ms later, the run of the attempt there is given it before or in its stage.", "quantifier": "all histories of all processes", "why_tests_cant": "the schedule of every run of every attempt is an invariant of the histories without delay", "anchors": ["siggy/src/signode/run_longterm.go:run_longterm", "siggy/src/signode/runner.go:_runner_run_guest", "siggy/src/protocol/firewall.go:_fw_state_step", "siggy/src/protocol/prot.go:_run_timed_steps", "siggy/src/protocol/prot.go:_run_incoming_queue_consumer"]}
{"id": "C99", "title": "Honest members whose messages arrive get their shares of one key", "statement": "If the generators of honest members do what is expected of kyber when they are given what the others made, then a run of the protocol sends exactly what its member has to say, as far as what it accepted was honest. When the members that take part accept only what such members sent and handle all of it in time, none of them gives up in the generation, exactly they qualify everywhere, and each puts out its own share, whatever follows the generation in a signing run.", "quantifier": "all groups of all sizes, all histories of their runs, all generators as specified", "why_tests_cant": "induction over the stages, across the runs of all members at once", "anchors": ["siggy/src/protocol/dkg.go:step_deal", "siggy/src/protocol/dkg.go:process_deal", "siggy/src/protocol/dkg.go:process_response", "siggy/src/protocol/dkg.go:step_vss_done", "siggy/src/protocol/dkg.go:step_commits", "siggy/src/protocol/dkg.go:process_commits", "siggy/src/protocol/dkg.go:step_final", "siggy/src/protocol/prot.go:_run_timed_steps"]}
{"id": "C100", "title": "Processes in which nothing is late make their long-term keys together", "statement": "Let processes with all members as guests between them be told the same time and let nothing be late in any of them. Let each message of an attempt that one sends arrive at the process of its recipient less than 70 ms later, and let nothing else come in for that attempt that passes the checks of _process_msg. If kyber does what is expected of it among honest members, every run of the attempt ends with the share of its member and a QUAL of all members, no process panics, and each one ends with a file that holds exactly the shares of its guests, if these have commitments on the curve.", "quantifier": "all numbers of processes and members, all histories, all attempts, all generators as specified", "why_tests_cant": "composition of the schedule of each process (C98), its firewall and queues, and the group of runs (C99)", "anchors": ["siggy/src/signode/run_longterm.go:run_longterm", "siggy/src/signode/run_longterm.go:_longterm_loop", "siggy/src/signode/run_longterm.go:_longterm", "siggy/src/signode/runner.go:_runner_run_guest", "siggy/src/protocol/firewall.go:_fw_state_step", "siggy/src/protocol/prot.go:_run_timed_steps"]}
{"id": "C101", "title": "Processes in which nothing is late sign together", "statement": "Let processes with guests for at least as many members as the threshold be asked to sign a document, each before the start, which is the same for all, and let nothing be late in any of them. Let what comes in for the generation of the nonce and passes the checks of _process_msg be what the processes sent, and let each message that one sends for the request arrive at the process of its recipient less than 70 ms later. If kyber does what is expected of it among honest members and makes shares of one nonce, then 650 ms after the start every process has printed one and the same signature for all its guests, and it verifies under the long-term key.", "quantifier": "all numbers of processes and members, all histories, all generators as specified", "why_tests_cant": "composition of the schedule of each process (C91), its firewall and queues, the group of generations (C99) and the signing runs (C72, C73)", "anchors": ["siggy/src/signode/run_sig.go:_run_sig", "siggy/src/signode/runner.go:run_dss", "siggy/src/signode/runner.go:_runner_run_guest", "siggy/src/protocol/firewall.go:_fw_state_step", "siggy/src/protocol/prot.go:_run_timed_steps", "siggy/src/protocol/dkg.go:step_final", "siggy/src/protocol/dss.go:st_init", "siggy/src/protocol/dss.go:st_partsig", "siggy/src/protocol/dss.go:pr_partsig", "siggy/src/protocol/dss.go:dss_st_final"]}
{"id": "C102", "title": "From the first start to a signature", "statement": "Let processes be started without long-term keys, with compiled configurations of the same members and the same threshold, and let them make keys together as in C100. Then each one writes a file, and started again with it, it runs with the same guests. If some of the processes are started again and asked to sign a document as in C101, all of these print one signature for all their guests 650 ms after the start of the request, and it verifies under the key that was made.", "quantifier": "all numbers of processes and members, all histories of both starts, all generators as specified", "why_tests_cant": "composition of configuration, start, key generation, files, start again and signing over all processes", "anchors": ["siggy/src/signode/signode.go:main", "siggy/src/signode/run_longterm.go:run_longterm", "siggy/src/signode/run_longterm.go:_longterm_loop", "siggy/src/signode/longterm_db.go:save_longterms", "siggy/src/signode/longterm_db.go:load_longterms", "siggy/src/signode/run_sig.go:_run_sig"]}
{"id": "C103", "title": "Processes with a working network between them make keys and sign", "statement": "Join the processes by the model of the network: what runs send goes through the queues of the callers, and calls reach whoever listens on the address of the queue. Let the processes know the same hosts and keys and listen on different addresses. If no call fails, no queue is full, messages are delivered within 40 ms, clocks differ by less than 30 ms at delivery and what others send for the run is copied from a process or fails the checks of _process_msg, then what comes in and passes them was sent by a process and what is sent comes in in time, at the process of its recipient. So with nothing late and with kyber as expected, the processes make keys, and those started again with their files sign, as in C100 to C102, with nothing assumed about which messages arrive.", "quantifier": "all numbers of processes and members, all histories of processes, queues and connectors", "why_tests_cant": "an invariant over the interleavings of all processes and queues, and the order of each queue", "anchors": ["siggy/src/net/net_caller.go:try_send", "siggy/src/net/net_caller.go:start_net_caller", "siggy/src/net/net_listener.go:Receive", "siggy/src/protocol/prot.go:_start_net_callers", "siggy/src/protocol/prot.go:_start_listeners1", "siggy/src/signode/signode.go:main"]}
{"id": "C104", "title": "Silent members do not stop the others from signing", "statement": "Let processes make long-term keys together. Then any set of them with at least as many guests as the threshold can sign without the others, which need not even be started: if a network works between those in the set and nothing is late in them, they have printed one signature for all their guests 650 ms after the start of a request, and it verifies under the key that all the processes made.", "quantifier": "all sets of processes, all histories of processes and network", "why_tests_cant": "for all subsets of all groups of processes; composition of everything from the first start on", "anchors": ["siggy/src/signode/signode.go:main", "siggy/src/signode/run_sig.go:_run_sig", "siggy/src/signode/runner.go:_runner_run_guest", "siggy/src/protocol/prot.go:_start_net_callers", "siggy/src/protocol/dkg.go:step_vss_done", "siggy/src/protocol/dkg.go:_cache_qual", "siggy/src/protocol/dkg.go:broadcast_qual", "siggy/src/protocol/dss.go:st_init"]}
{"id": "C105", "title": "A silent member stops the making of long-term keys", "statement": "Let processes be started without long-term keys, with a network that works and with nothing late, but let the process of some member not be started. Then no process gets long-term keys, however many members take part and whatever the threshold: 525 ms after the start of the attempt each one that has guests panics, with nothing else left to do, and none begins another attempt.", "quantifier": "all numbers of processes and members, all histories of processes and network", "why_tests_cant": "composition of the schedule (C98), the group of runs (C99) and what the main goroutine does with their outputs (C87)", "anchors": ["siggy/src/signode/run_longterm.go:run_longterm", "siggy/src/signode/run_longterm.go:_longterm_loop", "siggy/src/signode/run_longterm.go:_longterm", "siggy/src/signode/runner.go:run_dkg", "siggy/src/protocol/dkg.go:step_final", "siggy/src/protocol/dkg.go:_cache_qual"]}
{"id": "C106", "title": "Messages that fail the checks make no difference to a run", "statement": "Take away from the history of a protocol run any messages that fail the checks of _process_msg. If the run did not crash, it goes through the same stages at the same times, calls the same steps and processors, sends the same messages in the same order and ends with the same data. In key generation and signing, the messages that pass are exactly those of the type for their op code, from a member, that can be unmarshalled to a value with the index of that member (in a response the index of the verifier; in a justification both indices).", "quantifier": "all protocols, all histories, all sets of messages that fail", "why_tests_cant": "simulation of the run with the messages by the run without them; case analysis of the checks of each stage", "anchors": ["siggy/src/protocol/prot.go:_process_msg", "siggy/src/protocol/prot.go:_run_timed_steps", "siggy/src/protocol/prot.go:_run_incoming_queue_consumer", "siggy/src/protocol/dkg.go:_dkg_deal_v", "siggy/src/protocol/dkg.go:_dkg_response_v", "siggy/src/protocol/dkg.go:_dkg_justification_v", "siggy/src/protocol/dkg.go:_dkg_commits_v", "siggy/src/protocol/dkg.go:_dkg_compl_commits_v", "siggy/src/protocol/dkg.go:_dkg_recons_commits_v", "siggy/src/protocol/dss.go:dss_partsig_v"]}
{"id": "C107", "title": "Runs do not see the data of other runs, and a run leaves nothing in the tables", "statement": "A run finds its data in tables that are shared by all runs of the process. In any order of calls for any runs, new runs and clean-ups, a step or processor of a run does what it would do if the run had its data to itself, with the secret of its own guest, and leaves the data of all other runs as they are; a new run begins with no data of another. After its clean-up a run has no entry in the tables; what stays are the entries for the generators made by the verification of the configuration, one each.", "quantifier": "all histories of calls, new runs, clean-ups and documents, for any number of runs and guests", "why_tests_cant": "invariant: each generator and each DSS object belongs to one run; the tables have the entries of the runs that sign", "anchors": ["siggy/src/protocol/dss.go:make_dss_kdat", "siggy/src/protocol/dss.go:dss_cleanup", "siggy/src/protocol/dss.go:dss_kdat", "siggy/src/protocol/dss.go:st_init", "siggy/src/protocol/dss.go:st_partsig", "siggy/src/protocol/dss.go:pr_partsig", "siggy/src/protocol/dss.go:dss_st_final", "siggy/src/protocol/dkg.go:make_dkg_kdat", "siggy/src/protocol/prot.go:_verify_config_suits_make_kyber_dat", "siggy/src/protocol/prot.go:_new_run"]}
{"id": "C108", "title": "When outgoing messages are sent", "statement": "Whatever the peer does, the outgoing queue makes its first call at least two seconds after the start of the tool, and for 2.4 seconds after the start it drops no message for want of a connection. If the peer is there, with dialling and calls taking bounded time, and no thread is late, nothing is dropped for want of a connection at all, and every message is delivered in its turn: all that was accepted up to some time has been delivered, in order, once the connection has had the time to be made and each message before it the time for its call.", "quantifier": "all histories, all latencies, any number of messages", "why_tests_cant": "invariants of the queue with a clock; induction over the calls", "anchors": ["siggy/src/net/net_caller.go:_run_outgoing_queue_consumer", "siggy/src/net/net_caller.go:_run_connector", "siggy/src/net/net_caller.go:_try_connect", "siggy/src/net/net_caller.go:_retry_delay", "siggy/src/net/net_caller.go:start_net_caller"]}
{"id": "C109", "title": "With little load the outgoing queues deliver in time", "statement": "If the peer is there, dialling and calls take bounded time and no thread is late, nothing is sent before the connection has had the time to be made, and the messages given to a queue within any interval are so few that their calls fit into it, then no message is dropped at all and each has been delivered, in its turn, when the interval is over after it was sent. If this holds of the queues between several processes with an interval of 40 ms, then the network works in the sense in which the processes sign and make keys together.", "quantifier": "all histories, all latencies, all loads below the bound, any number of processes", "why_tests_cant": "invariant: the messages that wait were sent within the interval, and the calls are no further behind than the number of these allows", "anchors": ["siggy/src/net/net_caller.go:_run_outgoing_queue_consumer", "siggy/src/net/net_caller.go:try_send", "siggy/src/net/net_caller.go:_run_connector", "siggy/src/net/net_caller.go:_try_connect"]}
{"id": "C110", "title": "Outgoing messages when the peer comes back", "statement": "Whatever has happened before: from the moment at which the peer is there again, with dialling and calls taking bounded time and no thread late, at most one more call fails, with a connection made before; a message is dropped for want of a connection only during the next five minutes and two seconds and the time for dialling; and what is accepted and not dropped until some time after that is called in order within three seconds, the time for dialling and the time for the calls.", "quantifier": "all histories before and after, all latencies, any number of messages", "why_tests_cant": "invariants of the queue with a clock: what each timer of a connector can be, that only one old connection can be in use, and by when the next call can be made", "anchors": ["siggy/src/net/net_caller.go:_run_outgoing_queue_consumer", "siggy/src/net/net_caller.go:_run_connector", "siggy/src/net/net_caller.go:_try_connect", "siggy/src/net/net_caller.go:_retry_delay", "siggy/src/net/net_caller.go:_min"]}
{"id": "C111", "title": "From config.in to what signode reads", "statement": "Let config.in describe hosts, none of them with the plain label T, and let it hold other lists before the description and anything after it. If the file that hostcomp writes was empty or did not exist, then what signode reads after hostcomp and s2j are the labels, the addresses and the lists of files in the order written, and the files of all hosts together. If there was anything in that file, because the tools were used before, then signode does not start with the result, whatever config.in is. Nor does it start if a host has the plain label T.", "quantifier": "all descriptions of hosts, all other content of the files", "why_tests_cant": "computation with lists; the number of values in the file", "anchors": ["hostcomp/hostcomp.lisp:expand-config", "hostcomp/wispym.lisp:append-expr", "s2j/sexp-to-json.lisp:translate-file", "siggy/src/layout/config.go:load_config"]}
{"id": "C112", "title": "The mutexes: no deadlock, no goroutine waits with one, none is given back that is not held", "statement": "In every execution of the goroutines of signode, started at any times and in any number: no two goroutines hold a mutex at the same time, and none takes one that it already holds; a goroutine that sleeps, waits for a channel or for the network, or has ended, holds no mutex; only a mutex that the goroutine holds is unlocked; and whatever mutex is held, there are steps of goroutines, none of which has to wait for anything but mutexes, after which it is free. So goroutines never wait for each other in a circle.", "quantifier": "all interleavings of any number of goroutines, runs and guests, all outcomes of conditions", "why_tests_cant": "an order on the mutexes which every function keeps to, and induction on it; the interleavings are unbounded", "anchors": ["siggy/src/protocol/prot.go:_ensure_run", "siggy/src/protocol/prot.go:_run_timed_steps", "siggy/src/protocol/prot.go:_unlocked_sleep", "siggy/src/protocol/prot.go:_run_incoming_queue_consumer", "siggy/src/protocol/prot.go:obs_term", "siggy/src/protocol/prot.go:_update_term_observers", "siggy/src/protocol/prot.go:push_output", "siggy/src/protocol/prot.go:pop_output", "siggy/src/protocol/dss.go:st_init", "siggy/src/protocol/dss.go:make_dss_kdat", "siggy/src/protocol/dss.go:dss_kdat", "siggy/src/protocol/dss.go:dss_cleanup", "siggy/src/protocol/firewall.go:_fw_state_step", "siggy/src/protocol/firewall.go:_fw_sleep_unlocked_until", "siggy/src/protocol/firewall.go:_fw_process", "siggy/src/protocol/firewall.go:fw_set_allowance", "csprng/csprng/csprng.go:fill"]}
{"id": "C113", "title": "All data that goroutines share is guarded", "statement": "Two goroutines are never about to access the same mutable data, one of them to write it: the tables of runs, observers, outputs and documents, the tables of the signing objects, the state of the firewall, the fields of a run with its generator and signing object, the random number generator, and the secret keys of the guests.", "quantifier": "all interleavings of any number of goroutines, runs and guests, all outcomes of conditions", "why_tests_cant": "each access is shown to be made with the mutex that guards the data; the race detector sees only the interleavings that occur", "anchors": ["siggy/src/protocol/prot.go:_ensure_run", "siggy/src/protocol/prot.go:_run_timed_steps", "siggy/src/protocol/prot.go:_run_incoming_queue_consumer", "siggy/src/protocol/prot.go:obs_term", "siggy/src/protocol/prot.go:push_output", "siggy/src/protocol/prot.go:pop_output", "siggy/src/protocol/dss.go:st_init", "siggy/src/protocol/dss.go:st_partsig", "siggy/src/protocol/dss.go:make_dss_kdat", "siggy/src/protocol/firewall.go:_fw_state_step", "siggy/src/protocol/firewall.go:_fw_process", "csprng/csprng/csprng.go:fill", "ch/core/services/signatures/secp256k1/scalar.go:MarshalBinary", "ch/core/services/signatures/secp256k1/point.go:Mul", "ch/core/services/signatures/ethschnorr/ethschnorr.go:Sign", "ch/core/services/signatures/ethdss/ethdss.go:NewDSS"]}
{"id": "C114", "title": "What a node keeps of the messages it receives is limited", "statement": "Whatever messages arrive, a node keeps only a limited number of them: the firewall at most 2048 for a run, and only between the time at which it begins to buffer for the run and the start of the run; an incoming queue at most 10000; a run only those for stages that it has not entered yet, at most once each, in the order of arrival, and in limited number; and a run that is over keeps none.", "quantifier": "all histories of messages and of the node, all protocols", "why_tests_cant": "invariants of the firewall, the queues and the buffer of a run", "anchors": ["siggy/src/protocol/firewall.go:_fw_process", "siggy/src/protocol/firewall.go:_fw_state_step", "siggy/src/protocol/firewall.go:_fw_flush", "siggy/src/protocol/prot.go:_receive_msg", "siggy/src/protocol/prot.go:_run_incoming_queue_consumer", "siggy/src/protocol/prot.go:_run_timed_steps"]}
{"id": "C115", "title": "Times are read as RFC 3339 writes them", "statement": "A time written as RFC 3339 has it, with any fraction of a second and in any zone, is read as the instant that it stands for by the Gregorian calendar (to the nanosecond, without leap seconds), both as the start time of the tool and as the time of a request; a date that does not exist is refused. What else is taken for a time is: an hour of one digit, a comma before the fraction, and any two digits or a sign and a digit for the hours and minutes of the zone. Two requests with the same namespace and written times are the same run exactly if these are the same millisecond, in whatever zones they are written.", "quantifier": "all texts, all dates and zones", "why_tests_cant": "the texts and their readings are characterised exactly; the count of days is proved by induction over the calendar", "anchors": ["siggy/src/signode/run_sig.go:_run_sig1", "siggy/src/signode/signode.go:main", "siggy/src/signode/runner.go:_runner_run_id"]}
{"id": "C116", "title": "Key generation as kyber does it", "statement": "Honest members whose generators work by the scheme of Rabin, as in kyber, and who accept only what they sent each other and handle all of it in time, end with shares of the sum of their secrets, with one public key, whatever their random numbers are; so nothing need be assumed of the generators. Whatever deals, responses and commitments a generator is told, in whatever order, except for complaints about its own deals, whose justification is not in the model, a share that it gives is a value of the polynomial to which its own commitments belong. But the members need not agree: commitments are sent to each member and checked against its own share only, and a member who tells another one different commitments makes it finish with a different public key. If the time-out does not reach the responses to the own deals, a single silent member keeps all from making commitments.", "quantifier": "all groups, thresholds, polynomials, hashes, signatures, encryptions, orders of messages and of maps", "why_tests_cant": "invariants of the generator over all sequences of calls; algebra of the commitments", "anchors": ["siggy/src/protocol/dkg.go:make_dkg_kdat", "siggy/src/protocol/dkg.go:step_deal", "siggy/src/protocol/dkg.go:process_deal", "siggy/src/protocol/dkg.go:process_response", "siggy/src/protocol/dkg.go:step_vss_done", "siggy/src/protocol/dkg.go:step_commits", "siggy/src/protocol/dkg.go:process_commits", "siggy/src/protocol/dkg.go:step_final", "siggy/src/protocol/dkg.go:broadcast_qual"]}
{"id": "C117", "title": "Deals hide the secret of the dealer", "statement": "What fewer members than the threshold see of another one, before it publishes the commitments to its polynomial, says nothing about its secret: for any secret there are coefficients with which they see the same deals for them, the same answers to whatever deals and responses are sent, forged or not, except for complaints about its own deals, and the same qualified members. (Kyber answers such complaints by disclosing deals; this is not in the model.) The deals for as many members as the threshold fix the secret, and so do the published commitments.", "quantifier": "all thresholds, polynomials, sets of members below the threshold, secrets, and sequences of messages to the member", "why_tests_cant": "polynomials that vanish at the members; a relation between two generators kept by all calls", "anchors": ["siggy/src/protocol/dkg.go:make_dkg_kdat", "siggy/src/protocol/dkg.go:step_deal", "siggy/src/protocol/dkg.go:process_deal", "siggy/src/protocol/dkg.go:process_response", "siggy/src/protocol/dkg.go:step_commits"]}
{"id": "C118", "title": "A run with kyber's generator among others that may send anything", "statement": "Let one member have a generator that works by the scheme of Rabin, as in kyber, and let the others send it whatever they like, only no commitments in its own name. Its run of the key generation does not crash as long as the responses it receives have their inner part, nor does its run of the signing as long as partial signatures are complete too; what a key generation puts out is a share of a polynomial with as many coefficients as the threshold says, with the commitments to these; and every signature that it puts out, as it signs with such a share, verifies under the public key that belongs to the share, if this is not zero. (Justifications, complaints about commitments, reconstructions and complaints about own deals have no effect but an error in the model of the generator; what kyber does on receiving them is not covered.)", "quantifier": "all groups, thresholds, polynomials, hashes, signatures, encryptions, all sequences of messages from outside, all times", "why_tests_cant": "invariant of a run: what its generator was told and made by the stage it has got to; the theorems about runs then need nothing of the generator", "anchors": ["siggy/src/protocol/dkg.go:make_dkg_kdat", "siggy/src/protocol/dkg.go:process_deal", "siggy/src/protocol/dkg.go:process_response", "siggy/src/protocol/dkg.go:step_commits", "siggy/src/protocol/dkg.go:process_commits", "siggy/src/protocol/dkg.go:step_final", "siggy/src/protocol/dss.go:make_dss_kdat", "siggy/src/protocol/dss.go:st_init", "siggy/src/protocol/dss.go:st_partsig"]}
{"id": "C119", "title": "The tool with kyber's generators among others that may send anything", "statement": "Let the guests of a process have generators that work by the scheme of Rabin, as in kyber, and let others send complete messages, with any content except commitments in the name of the receiver. As the tool makes long-term keys, it panics only if the run of a guest has come to no key or has left too many members out, or if a saved commitment after the first one would be zero; and what it saves are shares of the guests whose public keys are not zero. As it signs with such shares, it never panics; from every moment it gets by itself to a state in which all requests have ended; and every signature that it prints verifies, for the document of the request, under the public key that belongs to the share of the guest. (Justifications, complaints about commitments, reconstructions and complaints about own deals have no effect but an error in the model of the generator; what kyber does on receiving them is not covered.)", "quantifier": "all histories of the process, its network and its requests, any number of guests, all groups, thresholds and polynomials", "why_tests_cant": "the theorems about the program with the facts about runs from C118 instead of assumptions about the generators", "anchors": ["siggy/src/signode/run_longterm.go:run_longterm", "siggy/src/signode/run_longterm.go:_longterm", "siggy/src/signode/longterm_db.go:save_longterms", "siggy/src/signode/run_sig.go:_run_sig", "siggy/src/signode/runner.go:run_dss", "siggy/src/signode/runner.go:_runner_run_guest", "siggy/src/protocol/dkg.go:make_dkg_kdat", "siggy/src/protocol/dkg.go:step_final", "siggy/src/protocol/dss.go:make_dss_kdat", "siggy/src/protocol/dss.go:st_init", "siggy/src/protocol/dss.go:st_partsig"]}
{"id": "C120", "title": "The tool with kyber's generators from the first start to a signature", "statement": "Let processes that know the same hosts and keys be started without long-term keys, with a network that works and with nothing late, and let their generators work by the scheme of Rabin, as in kyber, with the keys and the threshold in their files. If all members are their guests, none of them panics, and they save shares of one key: the sum of what the members chose, unless a coefficient of it is zero. Any of them with at least as many guests as the threshold, started again with these files, have printed one signature for all their guests 650 ms after the start of a request, and it verifies under the public key of the sum of the secrets of all members. But if a member is missing in the making of long-term keys, every process panics, and none has keys. Nothing is assumed of the generators.", "quantifier": "all numbers of processes and members, all histories of processes and network, all choices of the members", "why_tests_cant": "composition of C103, C104 and C105 with C116, which shows what honest generators do, and C118, which shows that they do not panic", "anchors": ["siggy/src/signode/signode.go:main", "siggy/src/signode/run_longterm.go:run_longterm", "siggy/src/signode/run_longterm.go:_longterm", "siggy/src/signode/run_sig.go:_run_sig", "siggy/src/signode/runner.go:_runner_run_guest", "siggy/src/protocol/dkg.go:make_dkg_kdat", "siggy/src/protocol/dkg.go:step_final", "siggy/src/protocol/dss.go:make_dss_kdat", "siggy/src/protocol/dss.go:st_init"]}
{"id": "C121", "title": "The hash object of the suite", "statement": "Whatever is written to the hash object and in whatever pieces, Sum gives Keccak-256 of all of it, which has 32 bytes, and more can be written afterwards; so the addresses, challenges, session identifiers, hashes of partial signatures and of public keys that the code computes by several writes are those of the hash of all bytes together. Different messages are padded to different blocks, and the tables of the permutation are those of the standard. The bytes hashed for a session identifier determine the commitments to both keys, provided that none is the identity and that the number of commitments to the long-term key is known; without that they do not.", "quantifier": "all messages, all divisions into pieces, all points, messages and shares", "why_tests_cant": "invariant: the lanes and the buffer are those of the bytes written so far; tests reach only a few lengths", "anchors": ["ch/core/services/signatures/secp256k1/suite.go:Hash", "ch/core/utils/utils.go:Keccak256", "ch/core/utils/utils.go:MustHash", "ch/core/services/signatures/secp256k1/point.go:EthereumAddress", "ch/core/services/signatures/ethschnorr/ethschnorr.go:ChallengeHash", "ch/core/services/signatures/ethdss/ethdss.go:sessionID"]}
{"id": "C122", "title": "From what is typed to what is printed", "statement": "The requests that the signing tool works at are those that can be read among the triples of words that came from standard input, each acted on once. When the tool leaves, standard input has ended (or has had a word that is too long), every such request has ended, and standard output has exactly the lines of these requests: if their run identifiers differ, one line that says that the runs have ended and one line for each guest. After the end of standard input only finitely much can happen without anything more from outside, and when nothing more can happen the tool has left, if the run identifiers differ; but when the same request was typed twice it may never leave. With generators that work as in kyber and whatever others send, the tool does not panic and every signature on standard output verifies for the document of a request that was typed. Started together with saved keys, with a network that works and with nothing late, the tools at which a request was typed have the same signature on standard output, once for each guest, 650 ms after its start. (Justifications, complaints about commitments, reconstructions and complaints about own deals have no effect but an error in the model of the generator; what kyber does on receiving them is not covered.)", "quantifier": "all texts and ways in which they arrive, all orders of the goroutines, all messages from the network, any number of guests and processes", "why_tests_cant": "refinement: a history between standard input and output has a history of the program in it; invariant that matches the goroutines with the triples of words; composition with C82, C93, C119 and C120", "anchors": ["siggy/src/signode/run_sig.go:run_sigs", "siggy/src/signode/run_sig.go:_run_sig1", "siggy/src/signode/run_sig.go:_run_sig", "siggy/src/signode/signode.go:main"]}
{"id": "C123", "title": "One liar can keep all others from signing", "statement": "A member who takes part in the generation of the random key of a signing can tell each other member commitments to a different polynomial that fits the share of that member. With generators that work as in kyber, all other members then finish with the shares they would have had, but with public keys that all differ. Each refuses the partial signatures of all others, unless the hash is the same of two different texts; so no member signs, however many honest ones there are: with a threshold above two whatever the liar sends, and with a threshold of two if it sends no partial signature. In a signing of three with a threshold of two, the two honest ones sign when the third tells both the same commitments, and do not when it lies.", "quantifier": "all groups, thresholds, polynomials, hashes of which the texts have different values, all sequences of partial signatures", "why_tests_cant": "algebra of the commitments; invariant: the shares counted are the own one and one of the liar", "anchors": ["siggy/src/protocol/dkg.go:process_commits", "siggy/src/protocol/dkg.go:step_commits", "ch/core/services/signatures/ethdss/ethdss.go:ProcessPartialSig", "ch/core/services/signatures/ethdss/ethdss.go:PartialSig", "ch/core/services/signatures/ethdss/ethdss.go:Signature", "ch/core/services/signatures/ethdss/ethdss.go:EnoughPartialSig", "ch/core/services/signatures/ethdss/ethdss.go:sessionID", "siggy/src/protocol/dss.go:st_init", "siggy/src/protocol/dss.go:st_partsig"]}
{"id": "C124", "title": "One liar can choose the public key of another member", "statement": "A member who takes part in a key generation and knows what the others publish can compute, for any point of the group and any other member, commitments that fit the share of that member and make it finish with that point as public key, and with the share it would have had; so also with a public key of which the liar alone has the secret, and what the liar signs with it verifies. This is computed from its own commitments, the public key that would have come about, the point and the number of the member. In a run of three, the same events but for such commitments give member 0 another public key. (Shown of generators that work as in kyber.)", "quantifier": "all groups of members, thresholds, polynomials, points of the group and secrets", "why_tests_cant": "algebra of the commitments; composition with C14 and C116", "anchors": ["siggy/src/protocol/dkg.go:step_commits", "siggy/src/protocol/dkg.go:process_commits", "siggy/src/protocol/dkg.go:step_final"]}
{"id": "C125", "title": "Keys and signatures need the commitments of all qualified members", "statement": "Let a member have a generator that works as in kyber, and let it receive no justifications, complaints about commitments or about its own deals, or reconstructions, which the model leaves out, but otherwise anything. If its key generation puts out a key, then it is itself among the qualified members, it has received commitments from each of the others, and the public key is the sum of the constant terms of all these and of its own (provided that no commitments came in its own name). So a qualified member that sends no commitments keeps it from any key, and in a signing from any signature.", "quantifier": "all groups, thresholds, polynomials, hashes, signatures, encryptions, all sequences of messages of the kinds covered, all times", "why_tests_cant": "invariant of a run: each entry in the table of commitments is the own one or came in a message of that sender", "anchors": ["siggy/src/protocol/dkg.go:step_commits", "siggy/src/protocol/dkg.go:process_commits", "siggy/src/protocol/dkg.go:step_final", "siggy/src/protocol/dss.go:st_init", "siggy/src/protocol/dss.go:st_partsig"]}
