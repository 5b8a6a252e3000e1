#!/usr/bin/env python3
"""Writes /verif/properties.jsonl from the table below (kept as the single source)."""
import json, os
P=[]
def p(id,title,statement,quantifier,why,*anchors):
    P.append(dict(id=id,title=title,statement=statement,quantifier=quantifier,why_tests_cant=why,anchors=list(anchors)))
S='ch/core/services/signatures/'
SC=S+'secp256k1/scalar.go:'; FI=S+'secp256k1/field.go:'; PT=S+'secp256k1/point.go:'; PK=S+'secp256k1/public_key.go:'
ES=S+'ethschnorr/ethschnorr.go:'; ED=S+'ethdss/ethdss.go:'
PR='siggy/src/protocol/prot.go:'; FW='siggy/src/protocol/firewall.go:'; DK='siggy/src/protocol/dkg.go:'; DS='siggy/src/protocol/dss.go:'
DT='siggy/src/protocol/dkg_dto.go:'; NC='siggy/src/net/net_caller.go:'; LA='siggy/src/layout/layout.go:'; ME='siggy/src/layout/member.go:'
CO='siggy/src/layout/config.go:'; LT='siggy/src/signode/longterm_db.go:'; RL='siggy/src/signode/run_longterm.go:'; RS='siggy/src/signode/run_sig.go:'
RU='siggy/src/signode/runner.go:'; CS='csprng/csprng/csprng.go:'; UF='siggy/src/util/file.go:'; UP='siggy/src/util/prim.go:'; BA='siggy/src/base/base.go:'

p('C01','Scalar operations compute in Z/nZ and stay canonical',
  'For all operands, Add, Sub, Neg, Mul, Set, Clone, SetInt64, SetBytes, Zero, One leave the receiver in [0, n) and equal to the corresponding Z/nZ result, where n is the group order.',
  'all integer operands, including unreduced and negative ones','the operand domain is infinite; tests sample it',SC+'Add',SC+'Sub',SC+'Neg',SC+'Mul',SC+'SetInt64',SC+'SetBytes',SC+'Set')
p('C02','Scalar division inverts multiplication and fails only on zero',
  'For every a and every reduced b ≠ 0, (a/b)*b = a and b*Inv(b) = 1 with canonical results; Div and Inv panic exactly when the divisor is 0.',
  'all scalars a, b','needs primality of the 256-bit group order; no test can sample all divisors',SC+'Div',SC+'Inv')
p('C03','Scalar binary encoding round-trips and is canonical',
  'MarshalBinary always succeeds with 32 bytes; UnmarshalBinary of it gives back the scalar; UnmarshalBinary accepts exactly the 32-byte strings and yields the big-endian value mod n; two scalars are Equal iff their encodings are the same bytes.',
  'all scalars and all byte strings','2^256 values; length and padding corner cases',SC+'MarshalBinary',SC+'UnmarshalBinary',SC+'Equal')
p('C04','Field element encoding and equality',
  'Bytes yields 32 bytes, SetBytes(Bytes(f)) is Equal to f, SetBytes(b) is the big-endian value of b mod q, and Equal holds iff the two values are congruent mod q.',
  'all integers backing a field element and all 32-byte strings','2^256 values',FI+'Bytes',FI+'SetBytes',FI+'Equal',FI+'modQ')
p('C05','Square roots are found exactly when they exist',
  'The square root routine on v returns some s with s² ≡ v (mod q) if v is a square mod q, and nil otherwise.',
  'all field elements v','needs number theory over a 256-bit prime',FI+'maybeSqrtInField')
p('C06','ValidPublicKey accepts exactly the affine curve points',
  'ValidPublicKey(P) is true iff P is a non-nil secp256k1 point whose coordinates satisfy y² = x³ + 7 mod q; in particular it is false for the identity.',
  'all coordinate pairs','2^512 coordinate pairs',PT+'ValidPublicKey',BA+'chain_valid')
p('C07','Compressed point encoding round-trips, and equal points have equal bytes',
  'For every curve point P, MarshalBinary succeeds with 33 bytes and UnmarshalBinary of them gives a point Equal to P; two curve points are Equal iff their encodings are equal byte strings; MarshalBinary fails on everything not on the curve, including the identity.',
  'all points','the member ordering of the tool relies on it for every key; needs uniqueness of square roots up to sign',PT+'MarshalBinary',PT+'UnmarshalBinary',PT+'Equal',ME+'load_and_sort')
p('C08','Decoding a point accepts exactly the valid encodings',
  'UnmarshalBinary(buf) succeeds iff buf has 33 bytes, its last byte is 0 or 1, and the big-endian value of the first 32 bytes mod q is the x ordinate of a curve point; the decoded point is then on the curve with that x and the parity of y given by the last byte.',
  'all byte strings','input space of untrusted bytes is unbounded',PT+'UnmarshalBinary')
p('C09','Uncompressed encoding round-trips',
  'For every curve point P, LongUnmarshal(LongMarshal(P)) succeeds and is Equal to P; LongUnmarshal succeeds only on 64-byte strings whose halves mod q satisfy the curve equation.',
  'all points, all byte strings','unbounded untrusted input',PT+'LongMarshal',PT+'LongUnmarshal',PT+'SetCoordinates')
p('C10','Point operations form a commutative group',
  'Null, Add, Sub, Neg map curve points (or identity) to curve points (or identity) and satisfy the abelian group laws; Mul(s,P) is the s-fold sum of P and Mul(s,nil) is the s-fold sum of Base.',
  'all points and scalars','associativity over all triples cannot be sampled meaningfully',PT+'Add',PT+'Sub',PT+'Neg',PT+'Mul',PT+'Null',PT+'Base')
p('C11','The group is cyclic of prime order n generated by Base',
  'Every curve point P satisfies n·P = identity and P = x·Base for exactly one scalar x in [0, n); so multiplying by a scalar only depends on it mod n, and each public key has exactly one secret key.',
  'all curve points','group order is a global fact about 2^256 points',PT+'Mul',PT+'Base',SC+'GroupOrder')
p('C12','Embedding data in a point is lossless',
  'For all data of at most 29 bytes and every random stream, if Embed returns then the result is on the curve and Data returns exactly the data; more than 29 bytes panics.',
  'all data and all random streams','all byte strings and all random streams',PT+'Embed',PT+'Data',PT+'EmbedLen')
p('C13','Random points and generated keys are valid',
  'Whatever the random stream, if Pick returns then the point is a valid curve point; if Generate returns then Public = Private·Base and it is a valid public key.',
  'all random streams','all random streams',PT+'Pick',PT+'Generate')
p('C14','Every signature produced by Sign verifies',
  'For every private scalar ≠ 0, every message in [0, 2^256) and every nonce, Sign succeeds and Verify accepts the result under private·Base.',
  'all keys, messages, nonces and hash functions','2^768 combinations',ES+'Sign',ES+'Verify',ES+'ChallengeHash')
p('C15','Verify accepts exactly the Schnorr relation and leaves the signature unchanged',
  'Verify(P,m,(a,s)) returns nil iff 0 ≤ s < n, P is on the curve, 0 ≤ m < 2^256 and the address of s·Base + e·P is a, where e is the challenge of (P,a,m); the call does not change s.',
  'all keys, messages and signatures','all inputs incl. adversarial signatures',ES+'Verify',ES+'ValidSignature')
p('C16','Signatures are not malleable',
  'For a given key, message and commitment address there is at most one s that Verify accepts, unless two different commitment points share one 160-bit address.',
  'all keys, messages and pairs of signatures','ranges over adversarial signatures',ES+'Verify')
p('C17','Reusing a nonce reveals the key',
  'From two accepted signatures under one key with the same commitment point and different challenges the private key is (s1-s2)/(e2-e1); conversely this extraction works for all such pairs (special soundness).',
  'all keys and pairs of accepted signatures','ranges over all adversarial pairs',ES+'Verify',ES+'Sign')
p('C18','The challenge binds key, message and nonce',
  'For uint256 messages the bytes hashed for the challenge determine the public key, the message and the nonce address uniquely.',
  'all pairs of (key, message, address)','an injectivity claim over unbounded pairs',ES+'ChallengeHash')
p('C19','Sign refuses messages Verify would refuse',
  'Sign returns an error for every message that is negative or has more than 256 bits, so a returned signature can always be verified.',
  'all integers as message','boundary plus unbounded range',ES+'ChallengeHash',ES+'Sign')
p('C20','Collected partial signatures are always distinct, qualified and valid',
  'After any history of PartialSig and ProcessPartialSig calls the collected partials have pairwise distinct indices, each peer partial has an index in QUAL and below the number of participants and satisfies the public share equation.',
  'all call histories with arbitrary (adversarial) partial signatures','unbounded histories',ED+'ProcessPartialSig',ED+'PartialSig')
p('C21','ProcessPartialSig rejects without effect',
  'ProcessPartialSig accepts iff the index is in range and in QUAL and new, the session id matches, the sender signature verifies and the share equation holds; when it rejects the collected set is unchanged.',
  'all DSS states and all partial signatures','all adversarial messages in all states',ED+'ProcessPartialSig')
p('C22','Honest partial signatures are accepted by every honest participant',
  'If the participants hold shares consistent with common long-term and nonce commitments, a partial signature made by one is accepted by every other which has not yet got it.',
  'all participant sets, thresholds, polynomials, messages','all sizes',ED+'PartialSig',ED+'ProcessPartialSig')
p('C23','Any threshold of valid partials yields a verifying signature',
  'With commitments to polynomials with at most T coefficients and consistent own share, whenever Signature returns a signature, whatever subset of peers contributed and in whatever order, Verify accepts it for the long-term public key and the message.',
  'all thresholds, participant counts, subsets, arrival orders, messages, shares','exponentially many subsets and orders',ED+'Signature',ED+'ProcessPartialSig')
p('C24','All participants compute the same signature',
  'Two participants of one session that both obtain a signature obtain the same one, whatever partials each used.',
  'all pairs of histories','exponentially many subsets and orders',ED+'Signature')
p('C25','Issuing a partial signature twice adds it once',
  'Calling PartialSig any number of times leaves exactly one own entry and returns the same share.',
  'all numbers of calls and interleavings with ProcessPartialSig','unbounded histories',ED+'PartialSig')
p('C26','Fewer than T partials do not determine the signature',
  'Signature returns an error while fewer than T partials are collected; and for any T-1 partials and any candidate scalar there is a further partial with which the recovered scalar would be that candidate.',
  'all sets of T-1 partials and all candidates','an information-theoretic claim over all values',ED+'Signature',ED+'EnoughPartialSig')
p('C27','Random bytes are never reused, skipped or over-drawn',
  'For any sequence of Fill calls of any lengths, the concatenated outputs are exactly the prefix of the concatenation of the first 1 MiB of successive freshly keyed streams.',
  'all call sequences and lengths, any key source','unbounded sequences, boundary at each MiB',CS+'fill',CS+'renew',CS+'Fill')
p('C28','The stream adaptor fills dst regardless of old contents and panics on a length mismatch',
  'XORKeyStream(dst,src) panics iff lengths differ, and otherwise dst is overwritten with the next random bytes independent of the old contents of dst and src.',
  'all buffers','all buffers and lengths',CS+'XORKeyStream')
p('C29','Wire objects survive conversion',
  'For each of the seven wire object kinds (deal, private share, VSS deal, justification, secret commits, complaint, reconstruct commits, partial signature), converting to the DTO and back gives an equal object whenever all its points are curve points; conversion to DTO fails exactly when some point is not.',
  'all wire objects','nested variable-length structures',DT+'deal_to_dto',DT+'dto_to_deal',DT+'justification_to_dto',DT+'commits_to_dto',DT+'compl_commits_to_dto',DT+'recons_commits_to_dto','siggy/src/protocol/dss_dto.go:partsig_to_dto')
p('C30','Saved long-term shares load back, and loading checks coverage',
  'Loading what was saved gives for every guest an equal share; loading fails if some guest has no share in the file.',
  'all maps of shares and guest sets','all maps',LT+'save_longterms',LT+'load_longterms',LT+'_verify_keys_subset')
p('C31','All nodes agree on the member order',
  'For configurations listing the same public keys (pairwise distinct) in any order and under any file names, the resulting ordered list of public keys is the same.',
  'all lists and permutations, any unstable sort','factorially many permutations',ME+'load_and_sort')
p('C32','Member lookup',
  'Every member index equals its position; find_member_index returns the position of the first member with that key and -1 iff there is none; map_pubfile_to_index maps each (distinct) file name to the index of the member loaded from it.',
  'all member lists','all lists',ME+'find_member_index',ME+'map_pubfile_to_index',ME+'load_and_sort')
p('C33','Members are routed to their configured host',
  'In a well-formed configuration (each file name listed on exactly one host) each member index is mapped to the address of the host listing its file, and every member index has a mapping.',
  'all configurations','all sizes and groupings',LA+'_compute_member_to_addr',LA+'_conf_members_as_indices',LA+'compute_layout')
p('C34','Guests are exactly the configured members whose secret is present',
  'compute_guests contains index i iff some given secret s has s·Base equal to the public key of member i (first match); the entry carries a secret matching its public key, the right index, and the right address; secrets not configured are ignored.',
  'all layouts and secret lists','all sizes and duplicates',LA+'compute_guests')
p('C35','Configuration compilation and loading agree',
  'For every host list, loading the JSON form of the compiled configuration yields the labels, addresses and member lists in the original order and the concatenation of the member lists as public key files.',
  'all host lists','all sizes',CO+'load_config','hostcomp/hostcomp.lisp:expand-config')
p('C36','A host entry naming an unknown key file is refused',
  'If a host lists a file name which is not among the loaded public key files, computing the layout fails rather than treating it as another member.',
  'all configurations','all configurations',LA+'_conf_members_as_indices')
p('C37','Nothing passes the firewall before initialisation time',
  'No message received before drop_until is ever output.',
  'all histories of messages, allowances and clock','all interleavings',FW+'_fw_process',FW+'make_fw')
p('C38','The firewall denies by default and allowances are isolated',
  'A message is output only if an allowance for exactly its protocol, recipient and run id had been set before, and it was received at or after its buffer time and before its stop.',
  'all histories','all interleavings',FW+'_fw_process',FW+'fw_set_allowance')
p('C39','Buffered messages are flushed once, in order, before newer ones',
  'For each run the output is the messages received while buffering (at most the first 2048) followed by those received while forwarding, in arrival order, each once.',
  'all histories','all interleavings, buffer boundary',FW+'_fw_flush',FW+'_fw_process')
p('C40','Revocation is final and leaves nothing behind',
  'After the stop of an allowance no message for it is output, and no state, allowance or buffer for it remains.',
  'all histories','all interleavings',FW+'_fw_state_step')
p('C41','Network messages cannot address unknown recipients or trigger run deletion',
  'Every message output by the firewall due to network input has a protocol code in range and a local recipient; in particular no network input can produce the internal delete-run signal.',
  'all messages and histories','untrusted inputs',FW+'_fw_message_valid',PR+'_receive_msg',PR+'_delete_run')
p('C42','A message is processed only during its own stage and at most once',
  'In every run, each delivered message is processed at most once and only when the run is in the stage equal to its Op and not in the pause after that stage.',
  'all schedules of timer steps and arrivals','all interleavings',PR+'_run_timed_steps',PR+'_run_incoming_queue_consumer')
p('C43','Early messages are kept in order, late ones are dropped',
  'Messages arriving before their stage are handed to processing exactly when the stage starts, after its step, in arrival order; messages arriving after their stage (or in its pause) are never processed.',
  'all schedules','all interleavings',PR+'_run_incoming_queue_consumer',PR+'_run_timed_steps')
p('C44','Abandoning a run is final',
  'Once a run is abandoned no stage step and no message processor is invoked for it again, although it still advances and terminates.',
  'all schedules','all interleavings',PR+'abandon',PR+'_process_msg',PR+'_run_timed_steps')
p('C45','Only well-typed messages with a consistent sender are processed',
  'A processor is invoked only with an object unmarshalled from a DTO of the type registered for the stage, with a sender index in range that equals the index inside the object.',
  'all messages','untrusted inputs',PR+'_process_msg',DK+'_dkg_deal_v',DS+'dss_partsig_v')
p('C46','Outgoing messages never leave before their stage',
  'A message sent with Op later than the current stage is transmitted when that stage starts, in sending order and once; broadcast and multicast never address the sender.',
  'all schedules and send sequences','all interleavings',PR+'send',PR+'_flush_snd_buf',PR+'broadcast',PR+'multicast')
p('C47','Every run executes all its stages in order and terminates',
  'A run enters stages 0..last in order, each once; cleanup runs exactly once after the last; terminated becomes true only then and stays true.',
  'all schedules','all interleavings',PR+'_run_timed_steps')
p('C48','Termination observers are notified exactly once',
  'Every observer registered for a run gets exactly one notification after the run terminates, whether it registers before, during or after termination, and sending it never blocks.',
  'all interleavings of registrations and the run (while the run is still registered)','all interleavings',PR+'obs_term',PR+'_update_term_observers')
p('C49','At most one live run object and one stepping thread per run id',
  'Under any interleaving of callers and message arrivals, between deletions exactly one run is created per (protocol, guest, run id), with exactly one stepping thread.',
  'all interleavings','all interleavings',PR+'ensure_active_run',PR+'_ensure_run',PR+'_delete_run')
p('C50','Finished runs are removed',
  'After a run has terminated and its firewall allowance has stopped, the clean-up signal removes the run from the registry, for both protocols.',
  'all runs of both protocols','needs the effect of every protocol code',RU+'_runner_cleanup_run',PR+'_receive_msg',PR+'_delete_run')
p('C51','A removed run is not resurrected by stragglers',
  'Once the clean-up signal for a run has been processed, no earlier received network message can recreate the run.',
  'all histories of messages','all interleavings',RU+'_runner_cleanup_run',FW+'_fw_state_step',PR+'_run_incoming_queue_consumer')
p('C52','Outputs are delivered once per run',
  'pop_output returns the most recently pushed output for exactly that protocol, guest and run id, and a second pop without another push returns none.',
  'all sequences of push and pop','all histories',PR+'push_output',PR+'pop_output')
p('C53','Outgoing queue is bounded, ordered, at most once',
  'Sending never blocks; at most 1000 messages wait per peer; the messages delivered to a peer are a subsequence, in order, of those sent.',
  'all schedules of sends, connection events and call results','all interleavings',NC+'try_send',NC+'_run_outgoing_queue_consumer')
p('C54','A message whose transmission failed is retried after reconnecting',
  'If a call fails, the message of that call is the first to be transmitted on the next connection.',
  'all schedules','all interleavings',NC+'_run_outgoing_queue_consumer')
p('C55','The connector publishes one connection, preceded by at most one failure notice, with bounded back-off',
  'Whatever the dial results, each connector publishes at most one nil, then at most one connection and then ends; its delays never decrease and never exceed five minutes.',
  'all sequences of dial results','unbounded sequences',NC+'_run_connector',NC+'_try_connect',NC+'_min')
p('C56','Stages do not drift and the firewall window covers the run',
  'If per-stage work and pause fit in the stage timeout then stage k ends exactly at start plus the sum of the first k+1 timeouts, whatever the work times; the firewall allowance stops only after the run ends.',
  'all work durations','all durations',PR+'_run_timed_steps',PR+'protocol_timeout',RU+'_runner_run_guest')
p('C57','Long-term key generation only returns usable keys',
  'If long-term generation returns, then for every guest the public key is valid for on-chain verification and every member is in QUAL; otherwise it retries or panics.',
  'all sequences of DKG outcomes','unbounded retries',RL+'_longterm_loop',RL+'_longterm')
p('C58','Standard input is consumed as complete triples',
  'For any token sequence, runs are started exactly for the consecutive complete triples, in order, and an incomplete last triple starts nothing; with _ as time the default start is used.',
  'all token sequences','unbounded input',RS+'run_sigs',RS+'_run_sig1')
p('C59','A signed document is the integer written on input',
  'The document signed for hex text d is the non-negative integer denoted by d: a signature produced for text d verifies for the integer d denotes and for no other integer with a different challenge.',
  'all document texts','unbounded inputs including signs',RS+'_run_sig1',ES+'ChallengeHash')
p('C60','No network message can crash the node',
  'Handling any decodable network message, in any state, never panics.',
  'all messages and states','untrusted inputs incl. nil inner pointers',PR+'_process_msg',DK+'_dkg_response_v',ED+'ProcessPartialSig',ED+'findPub')
p('C61','Public key text and database forms round-trip',
  'For every 33-byte key, SetFromHex(String()), UnmarshalText(MarshalText()) and Scan(Value()) give back the key; parsing succeeds iff the text is 0x followed by 66 hex digits.',
  'all keys and all strings','unbounded strings',PK+'String',PK+'SetFromHex',PK+'UnmarshalText',PK+'Scan',PK+'NewPublicKeyFromBytes')
p('C62','Public key address',
  'For every key that decodes to a point, Address is the Ethereum address of that point; for every other key it is the zero address; the all-zero key never decodes.',
  'all 33-byte keys','2^264 keys',PK+'Address',PK+'Hash',PK+'IsZero',PT+'EthereumAddress')
p('C63','Listening addresses are deduplicated',
  'unique returns each input string exactly once and nothing else, in some order.',
  'all string lists','all lists, all map orders',UP+'unique',PR+'_start_listeners1')
p('C64','Generated key files identify their owner',
  'For every generated pair, loading both files gives a secret whose public key is found in any member list containing that public key file.',
  'all secrets ≠ 0','2^256 secrets','siggy/src/keygen/keygen.go:main',BA+'pick_secret',BA+'compute_pub',LA+'compute_guests')
p('C65','A signature printed by the tool verifies',
  'Every signature pushed as the output of a signing run verifies under the long-term public key for the registered document.',
  'all runs, thresholds and stored shares','all thresholds, files and adversarial partials',DS+'dss_st_final',DS+'st_init')
p('C66','A run signs exactly the document registered for it',
  'Under any interleaving of registrations for other guests and run ids, the document used by a run is the one last registered for its guest and run id.',
  'all sequences of register/deregister','all histories',DS+'dss_register_doc',DS+'dss_deregister_doc',DS+'_doc_for')
p('C67','RepresentsScalar is true exactly on the scalar range',
  'RepresentsScalar(i) is true iff 0 ≤ i < n.','all integers','unbounded range',SC+'RepresentsScalar')
p('C68','Firewall observers never block the firewall',
  'The firewall state thread performs at most as many sends on its observer channel as its capacity, so it never blocks holding the lock, even if nobody reads.',
  'all schedules','all interleavings',FW+'_fw_state_step',FW+'fw_set_allowance')
p('C69','Scalar operations only change their receiver, even when aliased',
  'For any assignment of receiver and operands to variables, including receiver = operand, Add/Sub/Mul/Neg set the receiver to the result computed from the old operand values and change no other variable.',
  'all aliasing patterns and values','all aliasing patterns with all values',SC+'Add',SC+'Sub',SC+'Mul',SC+'Neg')
p('C70','Stage tables and op codes agree',
  'In both protocols the op code with which each kind of message is sent is the index of the stage whose registered DTO type is the type of the sent DTO and which has a processor.',
  'all message kinds of both protocols','relates two tables across files for every kind',DK+'init',DS+'dss_stages',PR+'ps')
p('C71','A request whose run id is in use waits for ever',
  'A runner that asks the firewall for an allowance while one exists for the same protocol, guest and run id never gets past waiting for the firewall, so the tool never returns from reading standard input.',
  'all histories','all interleavings',FW+'fw_set_allowance','siggy/src/signode/runner.go:_runner_run_guest','siggy/src/signode/run_sig.go:run_sigs')
p('C72','Enough honest signers always get a signature',
  'A signing run that is not given up before the partial signatures are exchanged and gets partial signatures of at least T-1 other honest qualified members in time puts out a signature that verifies, whatever else it receives.',
  'all groups, documents, thresholds, histories and further messages','all histories of several nodes with adversarial messages',DS+'st_init',DS+'st_partsig',DS+'pr_partsig',DS+'dss_st_final',PR+'_run_timed_steps',PR+'_process_msg')
p('C73','All honest signers of a run put out the same signature',
  'Any two signatures put out by honest members in runs of one group with the same nonce polynomial are equal, whatever each member received.',
  'all groups and histories','all pairs of histories with adversarial messages',DS+'st_partsig',DS+'pr_partsig',DS+'dss_st_final')
p('C74','Run identifiers tell requests and attempts apart',
  'Two signing requests have the same run identifier only if they have the same namespace and start in the same millisecond, two attempts at long-term keys only if they have the same start and number, and a request never has the identifier of an attempt.',
  'all namespaces, times and attempts','unbounded strings and times','siggy/src/signode/runner.go:_runner_run_id','siggy/src/signode/run_longterm.go:_longterm_loop','siggy/src/signode/run_sig.go:_run_sig')
p('C75','A request prints the signatures of its own runs on its own document',
  'Every request that ends has printed one line per guest, each from a run for this guest, run identifier and document that saw only messages for it, and every signature printed verifies for the document of the request.',
  'all histories of the whole program with any number of requests','all interleavings of all goroutines with all messages','siggy/src/signode/run_sig.go:_run_sig','siggy/src/signode/runner.go:run_dss',PR+'_run_incoming_queue_consumer',PR+'ensure_active_run',DS+'_doc_for')
p('C76','No history makes the signing program panic',
  'Whatever arrives from the network and however its goroutines interleave, the program does not panic while it signs.',
  'all histories of the whole program','all interleavings of all goroutines with all messages',PR+'_process_msg',PR+'_run_incoming_queue_consumer','siggy/src/signode/runner.go:_runner_run_guest','siggy/src/signode/run_sig.go:_run_sig')
p('C77','An ended request leaves nothing behind in the tables',
  'At every moment the tables of documents and of outputs hold entries only for requests that have not ended, and the document of a request is there while its runs go on.',
  'all histories of the whole program','all interleavings',DS+'dss_register_doc',DS+'dss_deregister_doc',PR+'push_output',PR+'pop_output',DK+'step_final')
p('C78','A node does not speak early',
  'At every moment a protocol run exists, and a message of it has been sent, only for a request whose start time has been reached, whatever the network has sent before.',
  'all histories of the whole program','all interleavings of all goroutines with all messages','siggy/src/signode/runner.go:_runner_run_guest',FW+'_fw_process',FW+'_fw_state_step',PR+'_run_incoming_queue_consumer',PR+'ensure_active_run')
p('C79','What an honest peer sends is taken',
  'If a node has sent a message for a request and the clock of the recipient, which has the same request with its allowance set, is at most max_drift behind, then the firewall of the recipient buffers or forwards the message when it arrives.',
  'all pairs of histories of two processes','relates all histories of two processes','siggy/src/signode/runner.go:_runner_run_guest',FW+'_fw_process',FW+'_fw_state_step','siggy/src/signode/signode.go:main')
p('C80','All processes print the same signature',
  'All signatures that any two processes with the keys of one group print for one request are equal and verify for its document, whatever each of them received, if the nonce shares that the runs for it got belong to one polynomial.',
  'all pairs of histories of whole programs','all pairs of histories with adversarial messages','siggy/src/signode/run_sig.go:_run_sig',DS+'st_partsig',DS+'pr_partsig',DS+'dss_st_final')
p('C81','A request with enough honest signers prints a signature',
  'If a request has ended, its run for a guest was not given up before the partial signatures and was given the partial signatures that at least T-1 guests of other processes of the group sent, then the line printed for this guest is a signature that verifies.',
  'all histories of the whole programs','all histories of several programs with adversarial messages','siggy/src/signode/run_sig.go:_run_sig',PR+'_run_timed_steps',DS+'pr_partsig',DS+'dss_st_final',PR+'push_output',PR+'pop_output')
p('C82','Every request ends',
  'If requests have different run identifiers, only finitely many steps are left at any moment, a state in which no step is left has every request ended with a line for each guest and no run, allowance, queued message or document, and such a state can always be reached unless some message was incomplete.',
  'all histories of the whole program','termination and deadlock freedom over all interleavings','siggy/src/signode/run_sig.go:_run_sig','siggy/src/signode/runner.go:_runner_run_guest',FW+'_fw_state_step',PR+'_run_timed_steps',PR+'_run_incoming_queue_consumer',PR+'obs_term')
p('C83','The tool starts exactly when its files fit together',
  'With a configuration compiled from a host list, the start succeeds if and only if every listed file holds a public key and every secret file a secret, threshold and time can be read, the generator accepts the keys, the addresses can be used and each guest has a long-term share in the mode that signs; the guests are the members whose secrets are held.',
  'all command lines, host lists and directories','unbounded inputs','siggy/src/signode/signode.go:main','siggy/src/signode/signode.go:_load_secrets',PR+'protocol_start',PR+'_verify_config_suits_make_kyber_dat','siggy/src/signode/longterm_db.go:load_longterms')
p('C84','Messages to a member go where its process listens',
  'With a configuration compiled from a host list, every guest has a queue to every member, and what it sends to a member that is a guest of another process started from the same hosts and keys goes to an address on which that process listens.',
  'all pairs of started processes','relates all pairs of starts','siggy/src/net/net_caller.go:start_net_caller','siggy/src/net/net_caller.go:try_send','siggy/src/net/net_listener.go:start_listeners',PR+'_start_net_callers',PR+'_start_listeners1')
p('C85','Processes started from the same files sign together',
  'Processes started with the same keys, threshold, time and shares of one long-term key make the same job of each request, take each other\'s messages, and all signatures they print for it are equal and verify, whatever else arrives.',
  'all pairs of started processes and their histories','relates all histories of two processes from their command lines','siggy/src/signode/signode.go:main','siggy/src/signode/run_sig.go:_run_sig1','siggy/src/signode/run_sig.go:_run_sig','siggy/src/signode/runner.go:_runner_run_guest')
p('C86','What the tool saves as long-term keys',
  'When the tool has written a file of long-term keys, it holds for each guest the share that the generator of a finished key-generation run gave, all in one attempt, with no member missing from QUAL and each public key on the curve; the attempts before it were complete too but had a public key that is not on the curve.',
  'all histories of the whole program that makes keys','all interleavings of all goroutines with all messages','siggy/src/signode/run_longterm.go:run_longterm','siggy/src/signode/run_longterm.go:_longterm_loop','siggy/src/signode/run_longterm.go:_longterm','siggy/src/signode/runner.go:run_dkg',DK+'step_final','siggy/src/signode/longterm_db.go:save_longterms')
p('C87','When the tool that makes long-term keys gives up',
  'On messages without nil pointers the tool that makes long-term keys panics only where it takes the output of a run that has left no key or whose QUAL is short of members, and there it always does, or at the end of an attempt in which a share has no commitments or one off the curve.',
  'all histories of the whole program that makes keys','all interleavings of all goroutines with all complete messages','siggy/src/signode/run_longterm.go:run_longterm','siggy/src/signode/run_longterm.go:_longterm','siggy/src/signode/runner.go:_runner_run_guest',PR+'push_output',PR+'pop_output')
p('C88','From making long-term keys to signing',
  'Processes whose attempts go together save shares of the same attempt, the first whose key is not zero; each can be started again with its file, has the same members and guests, and all signatures that they then print for a request are equal and verify under the key that was made.',
  'all pairs of processes, from their command lines','relates all histories of two processes over two starts','siggy/src/signode/signode.go:main','siggy/src/signode/run_longterm.go:run_longterm','siggy/src/signode/longterm_db.go:save_longterms','siggy/src/signode/longterm_db.go:load_longterms','siggy/src/signode/run_sig.go:_run_sig')
p('C89','Standard input as words',
  'The requests that are started are the triples of words of the text on standard input, in order and whatever the white space between them; what has been read up to white space is not affected by what follows; a word of more than 65535 bytes ends the reading, so that no later request is read.',
  'all texts','for every sequence of characters','siggy/src/signode/run_sig.go:run_sigs')
p('C90','Files of keygen',
  'However many runs of keygen there are at a time and whatever other programs create in between, a run that has ended has left the bytes of its two keys in two new files that no other run uses, and no file that was there has changed; a process that is then started with this directory loads exactly the secrets that were drawn and has the members with the written public keys as guests.',
  'all histories of all numbers of runs','invariant over all interleavings','siggy/src/keygen/keygen.go:main','siggy/src/util/file.go:save_to_temp','siggy/src/signode/signode.go:_load_secrets')
p('C91','Processes that are not late sign',
  'In a process in which every section runs within the millisecond in which it can, a request that is read before its start has ended 650 ms after it, whatever arrives; a message that arrives after the start and before the end of its stage is given to the run in time; every message is sent 5 ms after the stage before its own has ended and at no other time. If processes with at least T members among their guests sign a document together for the same start, no run is abandoned before the partial signatures are exchanged, all members are in QUAL and each partial signature arrives less than 70 ms after it was sent, then all processes print one and the same signature for all guests, and it verifies.',
  'all histories of all numbers of processes','the schedule of every run is an invariant of the histories without delay; then C80 and C81','siggy/src/signode/run_sig.go:_run_sig','siggy/src/signode/runner.go:_runner_run_guest',FW+'_fw_state_step',PR+'_run_timed_steps',PR+'_run_incoming_queue_consumer',DS+'st_partsig',DS+'pr_partsig')
p('C92','Every attempt at long-term keys ends',
  'As long as the tool that makes long-term keys has not written its file, it never comes to wait for ever: whatever has arrived and whatever has not, it gets by itself, as time passes and in a bounded number of steps, to a moment at which the file is written, or the next attempt begins, or it panics because the run of a guest has left no key, a QUAL short of members, or a share that cannot be written.',
  'all histories','a measure that every step makes smaller, and who waits for whom as an invariant',RL+'run_longterm',RU+'_runner_run',RU+'_runner_run_guest',PR+'obs_term',PR+'_update_term_observers')
p('C93','What the signing tool prints',
  'Standard output is an interleaving of the lines of the requests and nothing else: for each request, once its runs have ended, the line that says so, then one line per guest in the order in which they are printed; the line of a signature determines the signature and cannot be taken for one of the other lines.',
  'all histories and all signatures','invariant over all interleavings of requests; injectivity of the printed form',RS+'_run_sig')
p('C94','Scalars and points on streams',
  'Any sequence of scalars and of curve points written with MarshalTo is read back by UnmarshalFrom, whatever pieces the reader delivers and whatever follows, with 32 bytes for each scalar and 33 for each point; a stream that fails earlier gives an error, a point off the curve is not written, and the returned count is the number of bytes written.',
  'all sequences, readers and writers','all ways of cutting the bytes into pieces',SC+'MarshalTo',SC+'UnmarshalFrom',PT+'MarshalTo',PT+'UnmarshalFrom')
p('C95','New of the suite makes scalars and points',
  'New returns a new scalar for the type kyber.Scalar and a new point for kyber.Point.',
  'both types','the types compared with are computed from nil interface values',S+'secp256k1/suite.go:New')
p('C96','Point operations only change their receiver, even when aliased',
  'Whatever methods of points are called on whatever objects, with a receiver that may also be an operand, each call assigns to its receiver the result of the group operation on the values that the operands had, and leaves the values of all other points alone. Equal and MarshalBinary tell the values apart. Only after a failed UnmarshalBinary the value of its receiver is not defined.',
  'all sequences of method calls on all objects, all aliasings','methods write coordinates in place or replace them one after the other, so an alias can be read half-way; there are too many sequences of calls',PT+'Add',PT+'Sub',PT+'Neg',PT+'Mul',PT+'Set',PT+'Clone',PT+'Null',PT+'UnmarshalBinary')
p('C97','Text forms, sizes and conversions',
  'Reduced scalars, and points with reduced coordinates, print the same exactly if they are equal. Every encoding has the length that ScalarLen and PointLen tell. The hash of a reduced scalar is its encoding. A point of the curve is got back from its coordinates. The type tests change a scalar only to an equal reduced one.',
  'all scalars, points, byte strings and values','equality of all pairs of values',SC+'String',SC+'ScalarToHash',SC+'IsSecp256k1Scalar',PT+'String',PT+'Coordinates',PT+'MarshalSize',FI+'String',PK+'Set')
p('C98','Processes that are not late make keys together on time',
  'The attempts of started processes begin 1525 ms apart, the first 55 ms after the time up to which messages are dropped. In a process in which every section runs within the millisecond in which it can, each attempt is over 525 ms after it began, whatever arrives: the file is written or the next attempt begins. A message of an attempt is sent 5 ms after the end of the stage before its own and at no other time, and if it arrives at another such process less than 70 ms later, the run of the attempt there is given it before or in its stage.',
  'all histories of all processes','the schedule of every run of every attempt is an invariant of the histories without delay',RL+'run_longterm',RU+'_runner_run_guest',FW+'_fw_state_step',PR+'_run_timed_steps',PR+'_run_incoming_queue_consumer')
p('C99','Honest members whose messages arrive get their shares of one key',
  'If the generators of honest members do what is expected of kyber when they are given what the others made, then a run of the protocol sends exactly what its member has to say, as far as what it accepted was honest. When the members that take part accept only what such members sent and handle all of it in time, none of them gives up in the generation, exactly they qualify everywhere, and each puts out its own share, whatever follows the generation in a signing run.',
  'all groups of all sizes, all histories of their runs, all generators as specified','induction over the stages, across the runs of all members at once',DK+'step_deal',DK+'process_deal',DK+'process_response',DK+'step_vss_done',DK+'step_commits',DK+'process_commits',DK+'step_final',PR+'_run_timed_steps')
p('C100','Processes in which nothing is late make their long-term keys together',
  'Let processes with all members as guests between them be told the same time and let nothing be late in any of them. Let each message of an attempt that one sends arrive at the process of its recipient less than 70 ms later, and let nothing else come in for that attempt that passes the checks of _process_msg. If kyber does what is expected of it among honest members, every run of the attempt ends with the share of its member and a QUAL of all members, no process panics, and each one ends with a file that holds exactly the shares of its guests, if these have commitments on the curve.',
  'all numbers of processes and members, all histories, all attempts, all generators as specified','composition of the schedule of each process (C98), its firewall and queues, and the group of runs (C99)',RL+'run_longterm',RL+'_longterm_loop',RL+'_longterm',RU+'_runner_run_guest',FW+'_fw_state_step',PR+'_run_timed_steps')
p('C101','Processes in which nothing is late sign together',
  'Let processes with guests for at least as many members as the threshold be asked to sign a document, each before the start, which is the same for all, and let nothing be late in any of them. Let what comes in for the generation of the nonce and passes the checks of _process_msg be what the processes sent, and let each message that one sends for the request arrive at the process of its recipient less than 70 ms later. If kyber does what is expected of it among honest members and makes shares of one nonce, then 650 ms after the start every process has printed one and the same signature for all its guests, and it verifies under the long-term key.',
  'all numbers of processes and members, all histories, all generators as specified','composition of the schedule of each process (C91), its firewall and queues, the group of generations (C99) and the signing runs (C72, C73)','siggy/src/signode/run_sig.go:_run_sig',RU+'run_dss',RU+'_runner_run_guest',FW+'_fw_state_step',PR+'_run_timed_steps',DK+'step_final',DS+'st_init',DS+'st_partsig',DS+'pr_partsig',DS+'dss_st_final')
p('C102','From the first start to a signature',
  'Let processes be started without long-term keys, with compiled configurations of the same members and the same threshold, and let them make keys together as in C100. Then each one writes a file, and started again with it, it runs with the same guests. If some of the processes are started again and asked to sign a document as in C101, all of these print one signature for all their guests 650 ms after the start of the request, and it verifies under the key that was made.',
  'all numbers of processes and members, all histories of both starts, all generators as specified','composition of configuration, start, key generation, files, start again and signing over all processes','siggy/src/signode/signode.go:main',RL+'run_longterm',RL+'_longterm_loop','siggy/src/signode/longterm_db.go:save_longterms','siggy/src/signode/longterm_db.go:load_longterms','siggy/src/signode/run_sig.go:_run_sig')
p('C103','Processes with a working network between them make keys and sign',
  'Join the processes by the model of the network: what runs send goes through the queues of the callers, and calls reach whoever listens on the address of the queue. Let the processes know the same hosts and keys and listen on different addresses. If no call fails, no queue is full, messages are delivered within 40 ms, clocks differ by less than 30 ms at delivery and what others send for the run is copied from a process or fails the checks of _process_msg, then what comes in and passes them was sent by a process and what is sent comes in in time, at the process of its recipient. So with nothing late and with kyber as expected, the processes make keys, and those started again with their files sign, as in C100 to C102, with nothing assumed about which messages arrive.',
  'all numbers of processes and members, all histories of processes, queues and connectors','an invariant over the interleavings of all processes and queues, and the order of each queue',NC+'try_send',NC+'start_net_caller','siggy/src/net/net_listener.go:Receive',PR+'_start_net_callers',PR+'_start_listeners1','siggy/src/signode/signode.go:main')
p('C104','Silent members do not stop the others from signing',
  'Let processes make long-term keys together. Then any set of them with at least as many guests as the threshold can sign without the others, which need not even be started: if a network works between those in the set and nothing is late in them, they have printed one signature for all their guests 650 ms after the start of a request, and it verifies under the key that all the processes made.',
  'all sets of processes, all histories of processes and network','for all subsets of all groups of processes; composition of everything from the first start on','siggy/src/signode/signode.go:main','siggy/src/signode/run_sig.go:_run_sig',RU+'_runner_run_guest',PR+'_start_net_callers',DK+'step_vss_done',DK+'_cache_qual',DK+'broadcast_qual',DS+'st_init')
p('C105','A silent member stops the making of long-term keys',
  'Let processes be started without long-term keys, with a network that works and with nothing late, but let the process of some member not be started. Then no process gets long-term keys, however many members take part and whatever the threshold: 525 ms after the start of the attempt each one that has guests panics, with nothing else left to do, and none begins another attempt.',
  'all numbers of processes and members, all histories of processes and network','composition of the schedule (C98), the group of runs (C99) and what the main goroutine does with their outputs (C87)',RL+'run_longterm',RL+'_longterm_loop',RL+'_longterm',RU+'run_dkg',DK+'step_final',DK+'_cache_qual')
p('C106','Messages that fail the checks make no difference to a run',
  'Take away from the history of a protocol run any messages that fail the checks of _process_msg. If the run did not crash, it goes through the same stages at the same times, calls the same steps and processors, sends the same messages in the same order and ends with the same data. In key generation and signing, the messages that pass are exactly those of the type for their op code, from a member, that can be unmarshalled to a value with the index of that member (in a response the index of the verifier; in a justification both indices).',
  'all protocols, all histories, all sets of messages that fail','simulation of the run with the messages by the run without them; case analysis of the checks of each stage',PR+'_process_msg',PR+'_run_timed_steps',PR+'_run_incoming_queue_consumer',DK+'_dkg_deal_v',DK+'_dkg_response_v',DK+'_dkg_justification_v',DK+'_dkg_commits_v',DK+'_dkg_compl_commits_v',DK+'_dkg_recons_commits_v',DS+'dss_partsig_v')
p('C107','Runs do not see the data of other runs, and a run leaves nothing in the tables',
  'A run finds its data in tables that are shared by all runs of the process. In any order of calls for any runs, new runs and clean-ups, a step or processor of a run does what it would do if the run had its data to itself, with the secret of its own guest, and leaves the data of all other runs as they are; a new run begins with no data of another. After its clean-up a run has no entry in the tables; what stays are the entries for the generators made by the verification of the configuration, one each.',
  'all histories of calls, new runs, clean-ups and documents, for any number of runs and guests','invariant: each generator and each DSS object belongs to one run; the tables have the entries of the runs that sign',DS+'make_dss_kdat',DS+'dss_cleanup',DS+'dss_kdat',DS+'st_init',DS+'st_partsig',DS+'pr_partsig',DS+'dss_st_final',DK+'make_dkg_kdat',PR+'_verify_config_suits_make_kyber_dat',PR+'_new_run')
p('C108','When outgoing messages are sent',
  'Whatever the peer does, the outgoing queue makes its first call at least two seconds after the start of the tool, and for 2.4 seconds after the start it drops no message for want of a connection. If the peer is there, with dialling and calls taking bounded time, and no thread is late, nothing is dropped for want of a connection at all, and every message is delivered in its turn: all that was accepted up to some time has been delivered, in order, once the connection has had the time to be made and each message before it the time for its call.',
  'all histories, all latencies, any number of messages','invariants of the queue with a clock; induction over the calls',NC+'_run_outgoing_queue_consumer',NC+'_run_connector',NC+'_try_connect',NC+'_retry_delay',NC+'start_net_caller')
p('C109','With little load the outgoing queues deliver in time',
  'If the peer is there, dialling and calls take bounded time and no thread is late, nothing is sent before the connection has had the time to be made, and the messages given to a queue within any interval are so few that their calls fit into it, then no message is dropped at all and each has been delivered, in its turn, when the interval is over after it was sent. If this holds of the queues between several processes with an interval of 40 ms, then the network works in the sense in which the processes sign and make keys together.',
  'all histories, all latencies, all loads below the bound, any number of processes','invariant: the messages that wait were sent within the interval, and the calls are no further behind than the number of these allows',NC+'_run_outgoing_queue_consumer',NC+'try_send',NC+'_run_connector',NC+'_try_connect')
p('C110','Outgoing messages when the peer comes back',
  'Whatever has happened before: from the moment at which the peer is there again, with dialling and calls taking bounded time and no thread late, at most one more call fails, with a connection made before; a message is dropped for want of a connection only during the next five minutes and two seconds and the time for dialling; and what is accepted and not dropped until some time after that is called in order within three seconds, the time for dialling and the time for the calls.',
  'all histories before and after, all latencies, any number of messages','invariants of the queue with a clock: what each timer of a connector can be, that only one old connection can be in use, and by when the next call can be made',NC+'_run_outgoing_queue_consumer',NC+'_run_connector',NC+'_try_connect',NC+'_retry_delay',NC+'_min')
p('C111','From config.in to what signode reads',
  'Let config.in describe hosts, none of them with the plain label T, and let it hold other lists before the description and anything after it. If the file that hostcomp writes was empty or did not exist, then what signode reads after hostcomp and s2j are the labels, the addresses and the lists of files in the order written, and the files of all hosts together. If there was anything in that file, because the tools were used before, then signode does not start with the result, whatever config.in is. Nor does it start if a host has the plain label T.',
  'all descriptions of hosts, all other content of the files','computation with lists; the number of values in the file','hostcomp/hostcomp.lisp:expand-config','hostcomp/wispym.lisp:append-expr','s2j/sexp-to-json.lisp:translate-file',CO+'load_config')
p('C112','The mutexes: no deadlock, no goroutine waits with one, none is given back that is not held',
  'In every execution of the goroutines of signode, started at any times and in any number: no two goroutines hold a mutex at the same time, and none takes one that it already holds; a goroutine that sleeps, waits for a channel or for the network, or has ended, holds no mutex; only a mutex that the goroutine holds is unlocked; and whatever mutex is held, there are steps of goroutines, none of which has to wait for anything but mutexes, after which it is free. So goroutines never wait for each other in a circle.',
  'all interleavings of any number of goroutines, runs and guests, all outcomes of conditions','an order on the mutexes which every function keeps to, and induction on it; the interleavings are unbounded',PR+'_ensure_run',PR+'_run_timed_steps',PR+'_unlocked_sleep',PR+'_run_incoming_queue_consumer',PR+'obs_term',PR+'_update_term_observers',PR+'push_output',PR+'pop_output',DS+'st_init',DS+'make_dss_kdat',DS+'dss_kdat',DS+'dss_cleanup',FW+'_fw_state_step',FW+'_fw_sleep_unlocked_until',FW+'_fw_process',FW+'fw_set_allowance',CS+'fill')
p('C113','All data that goroutines share is guarded',
  'Two goroutines are never about to access the same mutable data, one of them to write it: the tables of runs, observers, outputs and documents, the tables of the signing objects, the state of the firewall, the fields of a run with its generator and signing object, the random number generator, and the secret keys of the guests.',
  'all interleavings of any number of goroutines, runs and guests, all outcomes of conditions','each access is shown to be made with the mutex that guards the data; the race detector sees only the interleavings that occur',PR+'_ensure_run',PR+'_run_timed_steps',PR+'_run_incoming_queue_consumer',PR+'obs_term',PR+'push_output',PR+'pop_output',DS+'st_init',DS+'st_partsig',DS+'make_dss_kdat',FW+'_fw_state_step',FW+'_fw_process',CS+'fill',SC+'MarshalBinary',PT+'Mul',ES+'Sign',ED+'NewDSS')
p('C114','What a node keeps of the messages it receives is limited',
  'Whatever messages arrive, a node keeps only a limited number of them: the firewall at most 2048 for a run, and only between the time at which it begins to buffer for the run and the start of the run; an incoming queue at most 10000; a run only those for stages that it has not entered yet, at most once each, in the order of arrival, and in limited number; and a run that is over keeps none.',
  'all histories of messages and of the node, all protocols','invariants of the firewall, the queues and the buffer of a run',FW+'_fw_process',FW+'_fw_state_step',FW+'_fw_flush',PR+'_receive_msg',PR+'_run_incoming_queue_consumer',PR+'_run_timed_steps')
p('C115','Times are read as RFC 3339 writes them',
  'A time written as RFC 3339 has it, with any fraction of a second and in any zone, is read as the instant that it stands for by the Gregorian calendar (to the nanosecond, without leap seconds), both as the start time of the tool and as the time of a request; a date that does not exist is refused. What else is taken for a time is: an hour of one digit, a comma before the fraction, and any two digits or a sign and a digit for the hours and minutes of the zone. Two requests with the same namespace and written times are the same run exactly if these are the same millisecond, in whatever zones they are written.',
  'all texts, all dates and zones','the texts and their readings are characterised exactly; the count of days is proved by induction over the calendar','siggy/src/signode/run_sig.go:_run_sig1','siggy/src/signode/signode.go:main',RU+'_runner_run_id')
p('C116','Key generation as kyber does it',
  'Honest members whose generators work by the scheme of Rabin, as in kyber, and who accept only what they sent each other and handle all of it in time, end with shares of the sum of their secrets, with one public key, whatever their random numbers are; so nothing need be assumed of the generators. Whatever deals, responses and commitments a generator is told, in whatever order, except for complaints about its own deals, whose justification is not in the model, a share that it gives is a value of the polynomial to which its own commitments belong. But the members need not agree: commitments are sent to each member and checked against its own share only, and a member who tells another one different commitments makes it finish with a different public key. If the time-out does not reach the responses to the own deals, a single silent member keeps all from making commitments.',
  'all groups, thresholds, polynomials, hashes, signatures, encryptions, orders of messages and of maps','invariants of the generator over all sequences of calls; algebra of the commitments',DK+'make_dkg_kdat',DK+'step_deal',DK+'process_deal',DK+'process_response',DK+'step_vss_done',DK+'step_commits',DK+'process_commits',DK+'step_final',DK+'broadcast_qual')
p('C117','Deals hide the secret of the dealer',
  'What fewer members than the threshold see of another one, before it publishes the commitments to its polynomial, says nothing about its secret: for any secret there are coefficients with which they see the same deals for them, the same answers to whatever deals and responses are sent, forged or not, except for complaints about its own deals, and the same qualified members. (Kyber answers such complaints by disclosing deals; this is not in the model.) The deals for as many members as the threshold fix the secret, and so do the published commitments.',
  'all thresholds, polynomials, sets of members below the threshold, secrets, and sequences of messages to the member','polynomials that vanish at the members; a relation between two generators kept by all calls',DK+'make_dkg_kdat',DK+'step_deal',DK+'process_deal',DK+'process_response',DK+'step_commits')
p('C118','A run with kyber\'s generator among others that may send anything',
  'Let one member have a generator that works by the scheme of Rabin, as in kyber, and let the others send it whatever they like, only no commitments in its own name. Its run of the key generation does not crash as long as the responses it receives have their inner part, nor does its run of the signing as long as partial signatures are complete too; what a key generation puts out is a share of a polynomial with as many coefficients as the threshold says, with the commitments to these; and every signature that it puts out, as it signs with such a share, verifies under the public key that belongs to the share, if this is not zero. (Justifications, complaints about commitments, reconstructions and complaints about own deals have no effect but an error in the model of the generator; what kyber does on receiving them is not covered.)',
  'all groups, thresholds, polynomials, hashes, signatures, encryptions, all sequences of messages from outside, all times','invariant of a run: what its generator was told and made by the stage it has got to; the theorems about runs then need nothing of the generator',DK+'make_dkg_kdat',DK+'process_deal',DK+'process_response',DK+'step_commits',DK+'process_commits',DK+'step_final',DS+'make_dss_kdat',DS+'st_init',DS+'st_partsig')
p('C119','The tool with kyber\'s generators among others that may send anything',
  'Let the guests of a process have generators that work by the scheme of Rabin, as in kyber, and let others send complete messages, with any content except commitments in the name of the receiver. As the tool makes long-term keys, it panics only if the run of a guest has come to no key or has left too many members out, or if a saved commitment after the first one would be zero; and what it saves are shares of the guests whose public keys are not zero. As it signs with such shares, it never panics; from every moment it gets by itself to a state in which all requests have ended; and every signature that it prints verifies, for the document of the request, under the public key that belongs to the share of the guest. (Justifications, complaints about commitments, reconstructions and complaints about own deals have no effect but an error in the model of the generator; what kyber does on receiving them is not covered.)',
  'all histories of the process, its network and its requests, any number of guests, all groups, thresholds and polynomials','the theorems about the program with the facts about runs from C118 instead of assumptions about the generators',RL+'run_longterm',RL+'_longterm',LT+'save_longterms',RS+'_run_sig',RU+'run_dss',RU+'_runner_run_guest',DK+'make_dkg_kdat',DK+'step_final',DS+'make_dss_kdat',DS+'st_init',DS+'st_partsig')
p('C120','The tool with kyber\'s generators from the first start to a signature',
  'Let processes that know the same hosts and keys be started without long-term keys, with a network that works and with nothing late, and let their generators work by the scheme of Rabin, as in kyber, with the keys and the threshold in their files. If all members are their guests, none of them panics, and they save shares of one key: the sum of what the members chose, unless a coefficient of it is zero. Any of them with at least as many guests as the threshold, started again with these files, have printed one signature for all their guests 650 ms after the start of a request, and it verifies under the public key of the sum of the secrets of all members. But if a member is missing in the making of long-term keys, every process panics, and none has keys. Nothing is assumed of the generators.',
  'all numbers of processes and members, all histories of processes and network, all choices of the members','composition of C103, C104 and C105 with C116, which shows what honest generators do, and C118, which shows that they do not panic','siggy/src/signode/signode.go:main',RL+'run_longterm',RL+'_longterm',RS+'_run_sig',RU+'_runner_run_guest',DK+'make_dkg_kdat',DK+'step_final',DS+'make_dss_kdat',DS+'st_init')
p('C121','The hash object of the suite',
  'Whatever is written to the hash object and in whatever pieces, Sum gives Keccak-256 of all of it, which has 32 bytes, and more can be written afterwards; so the addresses, challenges, session identifiers, hashes of partial signatures and of public keys that the code computes by several writes are those of the hash of all bytes together. Different messages are padded to different blocks, and the tables of the permutation are those of the standard. The bytes hashed for a session identifier determine the commitments to both keys, provided that none is the identity and that the number of commitments to the long-term key is known; without that they do not.',
  'all messages, all divisions into pieces, all points, messages and shares','invariant: the lanes and the buffer are those of the bytes written so far; tests reach only a few lengths',S+'secp256k1/suite.go:Hash','ch/core/utils/utils.go:Keccak256','ch/core/utils/utils.go:MustHash',S+'secp256k1/point.go:EthereumAddress',ES+'ChallengeHash',ED+'sessionID')
p('C122','From what is typed to what is printed',
  'The requests that the signing tool works at are those that can be read among the triples of words that came from standard input, each acted on once. When the tool leaves, standard input has ended (or has had a word that is too long), every such request has ended, and standard output has exactly the lines of these requests: if their run identifiers differ, one line that says that the runs have ended and one line for each guest. After the end of standard input only finitely much can happen without anything more from outside, and when nothing more can happen the tool has left, if the run identifiers differ; but when the same request was typed twice it may never leave. With generators that work as in kyber and whatever others send, the tool does not panic and every signature on standard output verifies for the document of a request that was typed. Started together with saved keys, with a network that works and with nothing late, the tools at which a request was typed have the same signature on standard output, once for each guest, 650 ms after its start. (Justifications, complaints about commitments, reconstructions and complaints about own deals have no effect but an error in the model of the generator; what kyber does on receiving them is not covered.)',
  'all texts and ways in which they arrive, all orders of the goroutines, all messages from the network, any number of guests and processes','refinement: a history between standard input and output has a history of the program in it; invariant that matches the goroutines with the triples of words; composition with C82, C93, C119 and C120',RS+'run_sigs',RS+'_run_sig1',RS+'_run_sig','siggy/src/signode/signode.go:main')
p('C123','One liar can keep all others from signing',
  'A member who takes part in the generation of the random key of a signing can tell each other member commitments to a different polynomial that fits the share of that member. With generators that work as in kyber, all other members then finish with the shares they would have had, but with public keys that all differ. Each refuses the partial signatures of all others, unless the hash is the same of two different texts; so no member signs, however many honest ones there are: with a threshold above two whatever the liar sends, and with a threshold of two if it sends no partial signature. In a signing of three with a threshold of two, the two honest ones sign when the third tells both the same commitments, and do not when it lies.',
  'all groups, thresholds, polynomials, hashes of which the texts have different values, all sequences of partial signatures','algebra of the commitments; invariant: the shares counted are the own one and one of the liar',DK+'process_commits',DK+'step_commits',ED+'ProcessPartialSig',ED+'PartialSig',ED+'Signature',ED+'EnoughPartialSig',ED+'sessionID',DS+'st_init',DS+'st_partsig')
p('C124','One liar can choose the public key of another member',
  'A member who takes part in a key generation and knows what the others publish can compute, for any point of the group and any other member, commitments that fit the share of that member and make it finish with that point as public key, and with the share it would have had; so also with a public key of which the liar alone has the secret, and what the liar signs with it verifies. This is computed from its own commitments, the public key that would have come about, the point and the number of the member. In a run of three, the same events but for such commitments give member 0 another public key. (Shown of generators that work as in kyber.)',
  'all groups of members, thresholds, polynomials, points of the group and secrets','algebra of the commitments; composition with C14 and C116',DK+'step_commits',DK+'process_commits',DK+'step_final')
p('C125','Keys and signatures need the commitments of all qualified members',
  'Let a member have a generator that works as in kyber, and let it receive no justifications, complaints about commitments or about its own deals, or reconstructions, which the model leaves out, but otherwise anything. If its key generation puts out a key, then it is itself among the qualified members, it has received commitments from each of the others, and the public key is the sum of the constant terms of all these and of its own (provided that no commitments came in its own name). So a qualified member that sends no commitments keeps it from any key, and in a signing from any signature.',
  'all groups, thresholds, polynomials, hashes, signatures, encryptions, all sequences of messages of the kinds covered, all times','invariant of a run: each entry in the table of commitments is the own one or came in a message of that sender',DK+'step_commits',DK+'process_commits',DK+'step_final',DS+'st_init',DS+'st_partsig')
if __name__=='__main__':
    out=os.path.join(os.path.dirname(os.path.abspath(__file__)),'..','properties.jsonl')
    with open(out,'w') as f:
        for x in P: f.write(json.dumps(x,ensure_ascii=False)+'\n')
    print(len(P))
