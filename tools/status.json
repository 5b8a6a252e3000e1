{
"C67": {"status": "partial", "note": "False of the code for negative integers (C67_counterexample); the range test is proved on non-negative integers."},
"C19": {"status": "partial", "note": "False of the code as stated (C19_counterexample); C19_sign_partial proves the part that holds."},
"C20": {"status": "partial", "note": "Qualification and validity proved for all histories; distinctness for histories that start with PartialSig (as dss.go does) or have only peer shares; false otherwise (C20_counterexample)."},
"C36": {"status": "partial", "note": "False of the code (C36_counterexample, C36_reads_zero); holds for configurations compiled by hostcomp (C36_compiled_partial)."},
"C60": {"status": "partial", "note": "False of the code (C60_counterexample_response, C60_counterexample_partsig). Proved for messages whose optional pointers are present, when the kyber generator does not panic."},
"C65": {"status": "partial", "note": "False of the code (C65_counterexample: stored share made under a larger threshold). Proved when the own shares are consistent and commit to polynomials with at most threshold coefficients."},
"C50": {"status": "partial", "note": "False of the code for key generation, whose protocol code 0 has no negative (C50_dkg_never_removed, C50_counterexample). Proved for protocols with a positive code, so for signing."},
"C51": {"status": "proved", "note": "For run ids that are not reused, as firewall.go asks; C51_reuse_counterexample shows that this is needed."},
"C54": {"status": "partial", "note": "False of the code (C54_never_retried for every history, C54_counterexample): the loop's post statement overwrites the failed message. C54_next_message_partial: only that message is lost."},
"C59": {"status": "partial", "note": "False of the code for texts with a minus sign (C59_counterexample, C59_sign_lost) and of no use from 2^256 on (C59_out_of_range). C59_signed_partial proves the rest."},
"C57": {"status": "proved", "note": "Validity for on-chain verification is what chain_valid tests: a point of the curve. C57_all_members assumes that a QUAL of kyber lists distinct member indices."},
"C74": {"status": "partial", "note": "False of the code for times before September 2001 or after November 2286 (C74_counterexample: namespaces 0 and 01). Proved for the times between; C74_kinds holds for all times."},
"C75": {"status": "partial", "note": "False of the code if two requests have one run identifier (C75_counterexample: the document is overwritten). C75_origin and C75_verifies_partial prove it for different identifiers; the latter needs consistent shares as C65 does."},
"C76": {"status": "partial", "note": "False of the code (C76_counterexample: a partial signature without inner signature; C76_counterexample_ids: equal run identifiers). Proved for complete messages, different identifiers and a kyber generator that does not panic."},
"C77": {"status": "partial", "note": "False of the code for the key shares that step_final pushes in signing runs (C77_counterexample). Proved for documents and signatures when run identifiers differ."},
"C78": {"status": "proved", "note": "C78_runs holds for all histories; C78_sent, on messages, is for requests with different run identifiers."},
"C79": {"status": "proved", "note": "For requests with different run identifiers in each process, room in the buffer and the queue, and firewall goroutines that are not late."},
"C80": {"status": "proved", "note": "For requests with different run identifiers in each process. As for C73, kyber is an arbitrary generator whose results are shares of one polynomial."},
"C81": {"status": "proved", "note": "Under the hypotheses of C72: sound group, honest senders in QUAL, and their messages given to the run before its stage ends."},
"C82": {"status": "proved", "note": "C82_reaches is for complete messages and a generator that does not panic, as C76_partial. For equal identifiers it is false: C82_counterexample_ids shows a second request that never ends."},
"C83": {"status": "proved", "note": "`C83_starts` is one direction, `C83_refuses` the other; the order of map iteration and the texts of errors are not modelled."},
"C84": {"status": "proved", "note": "For other configurations it is false: C84_counterexample_unlisted has a key file that no host lists, and the start or the first message to the last member panics."},
"C85": {"status": "proved", "note": "Under the hypotheses of C79 and C80: different run identifiers, nonce shares of one polynomial, room in the buffers."},
"C86": {"status": "proved", "note": "For different guests and times after 1970, in which case the attempts have different run identifiers (C74_own_attempts). kyber is an arbitrary generator."},
"C87": {"status": "proved", "note": "For a generator that does not panic on complete messages (Calm). The panics at the places named are what the code is written to do."},
"C88": {"status": "proved", "note": "That the attempts go together is the hypothesis `Deals`: the shares that kyber gives in attempt i are those of one polynomial for attempt i. Signing is under the hypotheses of C85."},
"C89": {"status": "proved", "note": "The text is valid UTF-8. In which pieces it is read, and the times and documents in the words, are not part of this."},
"C90": {"status": "proved", "note": "Files are not removed, and other programs create files but do not change those of keygen. The secret 0, which is drawn with probability 2^-256, leaves the file of the secret behind and then panics; the theorem for reading covers it."},
"C91": {"status": "proved", "note": "That nothing is late is a hypothesis on the history (Prompt), not a claim about the scheduler. That no run is abandoned in the key generation and that the members are in QUAL depends on the generator, which is arbitrary here, and is assumed; C101 derives both."},
"C92": {"status": "proved", "note": "That time passes is a choice of the history: the theorems give the steps and ticks after which the attempt is over. With arbitrary generators a run may panic instead; with calm ones and complete messages the panics are those named."},
"C93": {"status": "proved", "note": "Only fmt.Println to standard output in run_sig.go; lines are written whole. The line of a signature does not name its request (C93_not_attributed)."},
"C94": {"status": "proved", "note": "Readers deliver pieces, possibly with an error at the end of one; writers take everything or up to a limit."},
"C95": {"status": "partial", "note": "False of the code: reflect.TypeOf of a nil interface value is nil, so New returns nil for every type (C95_counterexample). C95_new_partial: nothing of the wrong kind is returned."},
"C96": {"status": "proved", "note": "That math/big and btcec read operands before they write, and that btcec returns new integers, is trusted. C96_failed_unmarshal: a failed UnmarshalBinary can leave its receiver off the curve."},
"C97": {"status": "proved", "note": "For numbers that are not reduced, which the package does not make, texts of equal scalars may differ (C97_unreduced_text)."},
"C98": {"status": "proved", "note": "That nothing is late is a hypothesis on the history (Prompt), not a claim about the scheduler; likewise that the process is there before the first start."},
"C99": {"status": "proved", "note": "What kyber's generators do among honest members is a hypothesis (Generates, met by a toy generator of any size); that messages arrive in time is one too (Timely)."},
"C100": {"status": "proved", "note": "That nothing is late and that messages are carried in time are hypotheses (Prompt, Carried), and so is what kyber does (Generates); all are met by two processes with three members in KeyTogetherExample."},
"C101": {"status": "proved", "note": "Nothing is assumed about the runs. That nothing is late and that messages are carried in time are hypotheses (Prompt, Relayed), and so is what kyber does (Generates); all are met by two processes with three members in SignTogetherExample."},
"C102": {"status": "proved", "note": "The hypotheses are those of C100 for the first start and of C101 for the second, with the files that the first start wrote; KeyTogetherExample and SignTogetherExample meet them with the same two processes."},
"C103": {"status": "proved", "note": "That the network works is a hypothesis on the history (Works); NetworkExample meets it with the two processes of KeyTogetherExample and SignTogetherExample and all their queues and connections."},
"C104": {"status": "proved", "note": "What kyber does when members are silent is part of the hypothesis on generators (Generates: exactly those that take part qualify); QuorumExample meets the hypotheses with the first of two processes."},
"C105": {"status": "proved", "note": "That each process panics is stated for the moment at which it can do nothing more by itself (C105_panics) and for each guest whose output is taken (C105_first). QuorumExample meets the hypotheses with the first of two processes, which has 2 of 3 members with a threshold of 2."},
"C106": {"status": "proved", "note": "Messages on which a check crashes are covered by C60. What passes the checks may change a run even if it is forged: the index is checked, not a signature of the sender."},
"C107": {"status": "proved"},
"C108": {"status": "proved"},
"C109": {"status": "proved", "note": "NetworkLoadExample meets the hypotheses of both theorems with two small processes."},
"C110": {"status": "proved", "note": "NetBackExample also shows that the bound of 302 s is met."},
"C111": {"status": "proved"},
"C113": {"status": "partial", "note": "False of the code for the secrets of the guests (C113_counterexample): MarshalBinary of a scalar writes it, and two runs of one guest call it with no common mutex. C113_tables_partial proves it for all other data."},
"C114": {"status": "partial", "note": "False of the code for the buffer of a run (C114_counterexample): while the firewall forwards, a run keeps any number of messages for later stages, whoever they are from. C114_firewall_partial, C114_queues_partial, C114_ahead_partial and C114_freed_partial prove the rest."}
}
