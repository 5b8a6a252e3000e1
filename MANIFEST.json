{
 "claims": [
  {
   "property": "C01",
   "status": "proved",
   "theorems": [
    "Verif.Props.C01_scalar_ops",
    "Verif.Props.C01_scalar_equal"
   ],
   "note": ""
  },
  {
   "property": "C02",
   "status": "proved",
   "theorems": [
    "Verif.Props.C02_div",
    "Verif.Props.C02_inv",
    "Verif.Props.C02_panic_iff",
    "Verif.Props.C02_inv_unreduced"
   ],
   "note": ""
  },
  {
   "property": "C03",
   "status": "proved",
   "theorems": [
    "Verif.Props.C03_roundtrip",
    "Verif.Props.C03_unmarshal",
    "Verif.Props.C03_equal_iff_bytes"
   ],
   "note": ""
  },
  {
   "property": "C04",
   "status": "proved",
   "theorems": [
    "Verif.Props.C04_field_bytes",
    "Verif.Props.C04_setBytes",
    "Verif.Props.C04_equal",
    "Verif.Props.C04_field_ops"
   ],
   "note": ""
  },
  {
   "property": "C05",
   "status": "proved",
   "theorems": [
    "Verif.Props.C05_sqrt"
   ],
   "note": ""
  },
  {
   "property": "C06",
   "status": "proved",
   "theorems": [
    "Verif.Props.C06_validPublicKey"
   ],
   "note": ""
  },
  {
   "property": "C07",
   "status": "proved",
   "theorems": [
    "Verif.Props.C07_roundtrip",
    "Verif.Props.C07_marshal_fails_iff",
    "Verif.Props.C07_equal_iff_bytes"
   ],
   "note": ""
  },
  {
   "property": "C08",
   "status": "proved",
   "theorems": [
    "Verif.Props.C08_unmarshal_accepts",
    "Verif.Props.C08_unmarshal_result",
    "Verif.Props.C08_noncanonical_accepted"
   ],
   "note": ""
  },
  {
   "property": "C09",
   "status": "proved",
   "theorems": [
    "Verif.Props.C09_roundtrip",
    "Verif.Props.C09_accepts",
    "Verif.Props.C09_setCoordinates"
   ],
   "note": ""
  },
  {
   "property": "C10",
   "status": "proved",
   "theorems": [
    "Verif.Props.C10_closure",
    "Verif.Props.C10_group_laws",
    "Verif.Props.C10_mul",
    "Verif.Props.C10_mul_neg"
   ],
   "note": ""
  },
  {
   "property": "C11",
   "status": "proved",
   "theorems": [
    "Verif.Props.C11_cyclic_of_order_n",
    "Verif.Props.C11_scalar_action"
   ],
   "note": ""
  },
  {
   "property": "C12",
   "status": "proved",
   "theorems": [
    "Verif.Props.C12_embed_data",
    "Verif.Props.C12_embed_too_long",
    "Verif.Props.C12_data_bounded"
   ],
   "note": ""
  },
  {
   "property": "C13",
   "status": "proved",
   "theorems": [
    "Verif.Props.C13_pick",
    "Verif.Props.C13_generate",
    "Verif.Props.C13_generate_first_draw"
   ],
   "note": ""
  },
  {
   "property": "C14",
   "status": "proved",
   "theorems": [
    "Verif.Props.C14_sign_verifies",
    "Verif.Props.C14_sign_stream"
   ],
   "note": ""
  },
  {
   "property": "C15",
   "status": "proved",
   "theorems": [
    "Verif.Props.C15_verify_iff",
    "Verif.Props.C15_verify_pure"
   ],
   "note": ""
  },
  {
   "property": "C16",
   "status": "proved",
   "theorems": [
    "Verif.Props.C16_unique_s",
    "Verif.Props.C16_no_malleability"
   ],
   "note": ""
  },
  {
   "property": "C17",
   "status": "proved",
   "theorems": [
    "Verif.Props.C17_extract",
    "Verif.Props.C17_nonce_reuse"
   ],
   "note": ""
  },
  {
   "property": "C18",
   "status": "proved",
   "theorems": [
    "Verif.Props.C18_challenge_input",
    "Verif.Props.C18_binding"
   ],
   "note": ""
  },
  {
   "property": "C19",
   "status": "partial",
   "theorems": [
    "Verif.Props.C19_counterexample",
    "Verif.Props.C19_sign_partial"
   ],
   "note": "False of the code as stated (C19_counterexample); C19_sign_partial proves the part that holds."
  },
  {
   "property": "C20",
   "status": "partial",
   "theorems": [
    "Verif.Props.C20_qualified",
    "Verif.Props.C20_distinct_partial",
    "Verif.Props.C20_distinct_peers_partial",
    "Verif.Props.C20_counterexample"
   ],
   "note": "Qualification and validity proved for all histories; distinctness for histories that start with PartialSig (as dss.go does) or have only peer shares; false otherwise (C20_counterexample)."
  },
  {
   "property": "C21",
   "status": "proved",
   "theorems": [
    "Verif.Props.C21_accepts_iff",
    "Verif.Props.C21_panics_iff",
    "Verif.Props.C21_effect"
   ],
   "note": ""
  },
  {
   "property": "C22",
   "status": "proved",
   "theorems": [
    "Verif.Props.C22_honest_accepted"
   ],
   "note": ""
  },
  {
   "property": "C23",
   "status": "proved",
   "theorems": [
    "Verif.Props.C23_value",
    "Verif.Props.C23_verifies",
    "Verif.Props.C23_returns"
   ],
   "note": ""
  },
  {
   "property": "C24",
   "status": "proved",
   "theorems": [
    "Verif.Props.C24_agree"
   ],
   "note": ""
  },
  {
   "property": "C25",
   "status": "proved",
   "theorems": [
    "Verif.Props.C25_once"
   ],
   "note": ""
  },
  {
   "property": "C26",
   "status": "proved",
   "theorems": [
    "Verif.Props.C26_refuses",
    "Verif.Props.C26_undetermined"
   ],
   "note": ""
  },
  {
   "property": "C27",
   "status": "proved",
   "theorems": [
    "Verif.Props.C27_fills_are_prefix"
   ],
   "note": ""
  },
  {
   "property": "C28",
   "status": "proved",
   "theorems": [
    "Verif.Props.C28_xorKeyStream",
    "Verif.Props.C28_independent"
   ],
   "note": ""
  },
  {
   "property": "C29",
   "status": "proved",
   "theorems": [
    "Verif.Props.C29_deal",
    "Verif.Props.C29_priShare",
    "Verif.Props.C29_vssDeal",
    "Verif.Props.C29_justification",
    "Verif.Props.C29_commits",
    "Verif.Props.C29_complCommits",
    "Verif.Props.C29_reconsCommits",
    "Verif.Props.C29_partsig"
   ],
   "note": ""
  },
  {
   "property": "C30",
   "status": "proved",
   "theorems": [
    "Verif.Props.C30_save_load",
    "Verif.Props.C30_coverage"
   ],
   "note": ""
  },
  {
   "property": "C31",
   "status": "proved",
   "theorems": [
    "Verif.Props.C31_same_order",
    "Verif.Props.C31_refuses"
   ],
   "note": ""
  },
  {
   "property": "C32",
   "status": "proved",
   "theorems": [
    "Verif.Props.C32_index",
    "Verif.Props.C32_find",
    "Verif.Props.C32_pubfile_map"
   ],
   "note": ""
  },
  {
   "property": "C33",
   "status": "proved",
   "theorems": [
    "Verif.Props.C33_routing",
    "Verif.Props.C33_addr_members"
   ],
   "note": ""
  },
  {
   "property": "C34",
   "status": "proved",
   "theorems": [
    "Verif.Props.C34_guests",
    "Verif.Props.C34_secret_files",
    "Verif.Props.C34_distinct_keys"
   ],
   "note": ""
  },
  {
   "property": "C35",
   "status": "proved",
   "theorems": [
    "Verif.Props.C35_compile_load",
    "Verif.Props.C35_wellFormed"
   ],
   "note": ""
  },
  {
   "property": "C36",
   "status": "partial",
   "theorems": [
    "Verif.Props.C36_counterexample",
    "Verif.Props.C36_reads_zero",
    "Verif.Props.C36_compiled_partial"
   ],
   "note": "False of the code (C36_counterexample, C36_reads_zero); holds for configurations compiled by hostcomp (C36_compiled_partial)."
  },
  {
   "property": "C37",
   "status": "proved",
   "theorems": [
    "Verif.Props.C37_nothing_early"
   ],
   "note": ""
  },
  {
   "property": "C38",
   "status": "proved",
   "theorems": [
    "Verif.Props.C38_only_allowed",
    "Verif.Props.C38_default_deny",
    "Verif.Props.C38_times"
   ],
   "note": ""
  },
  {
   "property": "C39",
   "status": "proved",
   "theorems": [
    "Verif.Props.C39_output"
   ],
   "note": ""
  },
  {
   "property": "C40",
   "status": "proved",
   "theorems": [
    "Verif.Props.C40_revoked"
   ],
   "note": ""
  },
  {
   "property": "C41",
   "status": "proved",
   "theorems": [
    "Verif.Props.C41_valid",
    "Verif.Props.C41_no_panic"
   ],
   "note": ""
  },
  {
   "property": "C42",
   "status": "proved",
   "theorems": [
    "Verif.Props.C42_own_stage_once"
   ],
   "note": ""
  },
  {
   "property": "C43",
   "status": "proved",
   "theorems": [
    "Verif.Props.C43_order",
    "Verif.Props.C43_after_step"
   ],
   "note": ""
  },
  {
   "property": "C44",
   "status": "proved",
   "theorems": [
    "Verif.Props.C44_final",
    "Verif.Props.C44_terminates"
   ],
   "note": ""
  },
  {
   "property": "C45",
   "status": "proved",
   "theorems": [
    "Verif.Props.C45_dss_sender",
    "Verif.Props.C45_dkg_sender",
    "Verif.Props.C45_checked"
   ],
   "note": ""
  },
  {
   "property": "C46",
   "status": "proved",
   "theorems": [
    "Verif.Props.C46_when_due",
    "Verif.Props.C46_multicast",
    "Verif.Props.C46_broadcast"
   ],
   "note": ""
  },
  {
   "property": "C47",
   "status": "proved",
   "theorems": [
    "Verif.Props.C47_stages",
    "Verif.Props.C47_sections",
    "Verif.Props.C47_stays",
    "Verif.Props.C47_terminates"
   ],
   "note": ""
  },
  {
   "property": "C48",
   "status": "proved",
   "theorems": [
    "Verif.Props.Registry.C48_at_most_once",
    "Verif.Props.Registry.C48_only_after",
    "Verif.Props.Registry.C48_notified",
    "Verif.Props.Registry.C48_never_blocks",
    "Verif.Props.Registry.C48_finite",
    "Verif.Props.Registry.C48_exactly_once",
    "Verif.Props.Registry.C48_drains"
   ],
   "note": ""
  },
  {
   "property": "C49",
   "status": "proved",
   "theorems": [
    "Verif.Props.Registry.C49_one_run",
    "Verif.Props.Registry.C49_registered",
    "Verif.Props.Registry.C49_distinct",
    "Verif.Props.Registry.C49_one_thread",
    "Verif.Props.Registry.C49_thread_has_run"
   ],
   "note": ""
  },
  {
   "property": "C50",
   "status": "partial",
   "theorems": [
    "Verif.Props.Node.C50_worked_off_partial",
    "Verif.Props.Node.C50_removed_partial",
    "Verif.Props.Node.C50_dkg_never_removed",
    "Verif.Props.Node.C50_counterexample"
   ],
   "note": "False of the code for key generation, whose protocol code 0 has no negative (C50_dkg_never_removed, C50_counterexample). Proved for protocols with a positive code, so for signing."
  },
  {
   "property": "C51",
   "status": "proved",
   "theorems": [
    "Verif.Props.Node.C51_not_resurrected",
    "Verif.Props.Node.C51_signal_last",
    "Verif.Props.Node.C51_reuse_counterexample"
   ],
   "note": "For run ids that are not reused, as firewall.go asks; C51_reuse_counterexample shows that this is needed."
  },
  {
   "property": "C52",
   "status": "proved",
   "theorems": [
    "Verif.Props.C52_last_pushed",
    "Verif.Props.C52_once"
   ],
   "note": ""
  },
  {
   "property": "C53",
   "status": "proved",
   "theorems": [
    "Verif.Props.NetCaller.C53_bounded",
    "Verif.Props.NetCaller.C53_never_blocks",
    "Verif.Props.NetCaller.C53_order",
    "Verif.Props.NetCaller.C53_lossless",
    "Verif.Props.NetCaller.C53_no_panic"
   ],
   "note": ""
  },
  {
   "property": "C54",
   "status": "partial",
   "theorems": [
    "Verif.Props.NetCaller.C54_never_retried",
    "Verif.Props.NetCaller.C54_counterexample",
    "Verif.Props.NetCaller.C54_next_message_partial"
   ],
   "note": "False of the code (C54_never_retried for every history, C54_counterexample): the loop's post statement overwrites the failed message. C54_next_message_partial: only that message is lost."
  },
  {
   "property": "C55",
   "status": "proved",
   "theorems": [
    "Verif.Props.NetCaller.C55_publications",
    "Verif.Props.NetCaller.C55_ends",
    "Verif.Props.NetCaller.C55_delays",
    "Verif.Props.NetCaller.C55_delays_bounded",
    "Verif.Props.NetCaller.C55_try_connect",
    "Verif.Props.NetCaller.C55_one_connector"
   ],
   "note": ""
  },
  {
   "property": "C56",
   "status": "proved",
   "theorems": [
    "Verif.Props.C56_durations",
    "Verif.Props.C56_no_drift",
    "Verif.Props.C56_window"
   ],
   "note": ""
  },
  {
   "property": "C57",
   "status": "proved",
   "theorems": [
    "Verif.Props.Signode.C57_returns",
    "Verif.Props.Signode.C57_all_members",
    "Verif.Props.Signode.C57_panics",
    "Verif.Props.Signode.C57_retries",
    "Verif.Props.Signode.C57_accepts"
   ],
   "note": "Validity for on-chain verification is what chain_valid tests: a point of the curve. C57_all_members assumes that a QUAL of kyber lists distinct member indices."
  },
  {
   "property": "C58",
   "status": "proved",
   "theorems": [
    "Verif.Props.Signode.C58_triples",
    "Verif.Props.Signode.C58_tokens",
    "Verif.Props.Signode.C58_start",
    "Verif.Props.Signode.C58_runs"
   ],
   "note": ""
  },
  {
   "property": "C59",
   "status": "partial",
   "theorems": [
    "Verif.Props.Signode.C59_reading",
    "Verif.Props.Signode.C59_registered",
    "Verif.Props.Signode.C59_signed_partial",
    "Verif.Props.Signode.C59_sign_lost",
    "Verif.Props.Signode.C59_out_of_range",
    "Verif.Props.Signode.C59_counterexample"
   ],
   "note": "False of the code for texts with a minus sign (C59_counterexample, C59_sign_lost) and of no use from 2^256 on (C59_out_of_range). C59_signed_partial proves the rest."
  },
  {
   "property": "C60",
   "status": "partial",
   "theorems": [
    "Verif.Props.C60_dkg_partial",
    "Verif.Props.C60_dss_partial",
    "Verif.Props.C60_counterexample_response",
    "Verif.Props.C60_counterexample_partsig"
   ],
   "note": "False of the code (C60_counterexample_response, C60_counterexample_partsig). Proved for messages whose optional pointers are present, when the kyber generator does not panic."
  },
  {
   "property": "C61",
   "status": "proved",
   "theorems": [
    "Verif.Props.C61_roundtrip",
    "Verif.Props.C61_accepts",
    "Verif.Props.C61_uncompressed"
   ],
   "note": ""
  },
  {
   "property": "C62",
   "status": "proved",
   "theorems": [
    "Verif.Props.C62_address"
   ],
   "note": ""
  },
  {
   "property": "C63",
   "status": "proved",
   "theorems": [
    "Verif.Props.C63_unique"
   ],
   "note": ""
  },
  {
   "property": "C64",
   "status": "proved",
   "theorems": [
    "Verif.Props.C64_keygen",
    "Verif.Props.C64_zero"
   ],
   "note": ""
  },
  {
   "property": "C65",
   "status": "partial",
   "theorems": [
    "Verif.Props.C65_verifies_partial",
    "Verif.Props.C65_counterexample"
   ],
   "note": "False of the code (C65_counterexample: stored share made under a larger threshold). Proved when the own shares are consistent and commit to polynomials with at most threshold coefficients."
  },
  {
   "property": "C66",
   "status": "proved",
   "theorems": [
    "Verif.Props.C66_last_registered",
    "Verif.Props.C66_none",
    "Verif.Props.C66_total",
    "Verif.Props.C66_signs"
   ],
   "note": ""
  },
  {
   "property": "C67",
   "status": "partial",
   "theorems": [
    "Verif.Props.C67_counterexample",
    "Verif.Props.C67_representsScalar_partial"
   ],
   "note": "False of the code for negative integers (C67_counterexample); the range test is proved on non-negative integers."
  },
  {
   "property": "C68",
   "status": "proved",
   "theorems": [
    "Verif.Props.C68_never_blocks"
   ],
   "note": ""
  },
  {
   "property": "C69",
   "status": "proved",
   "theorems": [
    "Verif.Props.C69_programs_refine_field",
    "Verif.Props.C69_frame"
   ],
   "note": ""
  },
  {
   "property": "C70",
   "status": "proved",
   "theorems": [
    "Verif.Props.C70_dkg",
    "Verif.Props.C70_dss"
   ],
   "note": ""
  },
  {
   "property": "C71",
   "status": "proved",
   "theorems": [
    "Verif.Props.Node.C71_repeated_request_hangs"
   ],
   "note": ""
  },
  {
   "property": "C72",
   "status": "proved",
   "theorems": [
    "Verif.Props.C72_signs"
   ],
   "note": ""
  },
  {
   "property": "C73",
   "status": "proved",
   "theorems": [
    "Verif.Props.C73_agree"
   ],
   "note": ""
  },
  {
   "property": "C74",
   "status": "partial",
   "theorems": [
    "Verif.Props.RunId.C74_requests_partial",
    "Verif.Props.RunId.C74_attempts_partial",
    "Verif.Props.RunId.C74_own_attempts",
    "Verif.Props.RunId.C74_kinds",
    "Verif.Props.RunId.C74_counterexample"
   ],
   "note": "False of the code for times before September 2001 or after November 2286 (C74_counterexample: namespaces 0 and 01). Proved for the times between; C74_kinds holds for all times."
  },
  {
   "property": "C75",
   "status": "partial",
   "theorems": [
    "Verif.Props.Program.C75_origin",
    "Verif.Props.Program.C75_verifies_partial",
    "Verif.Props.Program.C75_counterexample"
   ],
   "note": "False of the code if two requests have one run identifier (C75_counterexample: the document is overwritten). C75_origin and C75_verifies_partial prove it for different identifiers; the latter needs consistent shares as C65 does."
  },
  {
   "property": "C76",
   "status": "partial",
   "theorems": [
    "Verif.Props.Program.C76_partial",
    "Verif.Props.Program.C76_counterexample",
    "Verif.Props.Program.C76_counterexample_ids"
   ],
   "note": "False of the code (C76_counterexample: a partial signature without inner signature; C76_counterexample_ids: equal run identifiers). Proved for complete messages, different identifiers and a kyber generator that does not panic."
  },
  {
   "property": "C77",
   "status": "partial",
   "theorems": [
    "Verif.Props.Program.C77_docs",
    "Verif.Props.Program.C77_sigs",
    "Verif.Props.Program.C77_ended",
    "Verif.Props.Program.C77_counterexample"
   ],
   "note": "False of the code for the key shares that step_final pushes in signing runs (C77_counterexample). Proved for documents and signatures when run identifiers differ."
  },
  {
   "property": "C78",
   "status": "proved",
   "theorems": [
    "Verif.Props.Program.C78_runs",
    "Verif.Props.Program.C78_sent"
   ],
   "note": "C78_runs holds for all histories; C78_sent, on messages, is for requests with different run identifiers."
  },
  {
   "property": "C79",
   "status": "proved",
   "theorems": [
    "Verif.Props.Program.C79_taken"
   ],
   "note": "For requests with different run identifiers in each process, room in the buffer and the queue, and firewall goroutines that are not late."
  },
  {
   "property": "C80",
   "status": "proved",
   "theorems": [
    "Verif.Props.Program.C80_same"
   ],
   "note": "For requests with different run identifiers in each process. As for C73, kyber is an arbitrary generator whose results are shares of one polynomial."
  },
  {
   "property": "C81",
   "status": "proved",
   "theorems": [
    "Verif.Props.Program.C81_prints"
   ],
   "note": "Under the hypotheses of C72: sound group, honest senders in QUAL, and their messages given to the run before its stage ends."
  },
  {
   "property": "C82",
   "status": "proved",
   "theorems": [
    "Verif.Props.Program.C82_bounded",
    "Verif.Props.Program.C82_settled",
    "Verif.Props.Program.C82_reaches",
    "Verif.Props.Program.C82_counterexample_ids"
   ],
   "note": "C82_reaches is for complete messages and a generator that does not panic, as C76_partial. For equal identifiers it is false: C82_counterexample_ids shows a second request that never ends."
  },
  {
   "property": "C83",
   "status": "proved",
   "theorems": [
    "Verif.Props.Start.C83_guests",
    "Verif.Props.Start.C83_refuses",
    "Verif.Props.Start.C83_starts"
   ],
   "note": "`C83_starts` is one direction, `C83_refuses` the other; the order of map iteration and the texts of errors are not modelled."
  },
  {
   "property": "C84",
   "status": "proved",
   "theorems": [
    "Verif.Props.Start.C84_routes",
    "Verif.Props.Start.C84_listens",
    "Verif.Props.Start.C84_reaches",
    "Verif.Props.Start.C84_counterexample_unlisted"
   ],
   "note": "For other configurations it is false: C84_counterexample_unlisted has a key file that no host lists, and the start or the first message to the last member panics."
  },
  {
   "property": "C85",
   "status": "proved",
   "theorems": [
    "Verif.Props.Start.C85_ready",
    "Verif.Props.Start.C85_same",
    "Verif.Props.Start.C85_jobs",
    "Verif.Props.Start.C85_now",
    "Verif.Props.Start.C85_taken"
   ],
   "note": "Under the hypotheses of C79 and C80: different run identifiers, nonce shares of one polynomial, room in the buffers."
  },
  {
   "property": "C86",
   "status": "proved",
   "theorems": [
    "Verif.Props.KeyProgram.C86_saved"
   ],
   "note": "For different guests and times after 1970, in which case the attempts have different run identifiers (C74_own_attempts). kyber is an arbitrary generator."
  },
  {
   "property": "C87",
   "status": "proved",
   "theorems": [
    "Verif.Props.KeyProgram.C87_gives_up",
    "Verif.Props.KeyProgram.C87_panics"
   ],
   "note": "For a generator that does not panic on complete messages (Calm). The panics at the places named are what the code is written to do."
  },
  {
   "property": "C88",
   "status": "proved",
   "theorems": [
    "Verif.Props.KeyStart.C88_same_key",
    "Verif.Props.KeyStart.C88_restarts",
    "Verif.Props.KeyStart.C88_end_to_end"
   ],
   "note": "That the attempts go together is the hypothesis `Deals`: the shares that kyber gives in attempt i are those of one polynomial for attempt i. Signing is under the hypotheses of C85."
  },
  {
   "property": "C89",
   "status": "proved",
   "theorems": [
    "Verif.Props.Scan.C89_words",
    "Verif.Props.Scan.C89_long",
    "Verif.Props.Scan.C89_unique",
    "Verif.Props.Scan.C89_requests",
    "Verif.Props.Scan.C89_stream"
   ],
   "note": "The text is valid UTF-8. In which pieces it is read, and the times and documents in the words, are not part of this."
  },
  {
   "property": "C90",
   "status": "proved",
   "theorems": [
    "Verif.Props.Files.C90_written",
    "Verif.Props.Files.C90_secrets",
    "Verif.Props.Files.C90_guests",
    "Verif.Props.Files.C90_goes_on"
   ],
   "note": "Files are not removed, and other programs create files but do not change those of keygen. The secret 0, which is drawn with probability 2^-256, leaves the file of the secret behind and then panics; the theorem for reading covers it."
  },
  {
   "property": "C91",
   "status": "proved",
   "theorems": [
    "Verif.Props.Program.C91_ends",
    "Verif.Props.Program.C91_given",
    "Verif.Props.Program.C91_sends",
    "Verif.Props.Program.C91_prints",
    "Verif.Props.Program.C91_all"
   ],
   "note": "That nothing is late is a hypothesis on the history (Prompt), not a claim about the scheduler. That no run is abandoned in the key generation and that the members are in QUAL depends on the generator, which is arbitrary here, and is assumed; C101 derives both."
  },
  {
   "property": "C92",
   "status": "proved",
   "theorems": [
    "Verif.Props.KeyProgram.C92_awake",
    "Verif.Props.KeyProgram.C92_bounded",
    "Verif.Props.KeyProgram.C92_attempt_ends",
    "Verif.Props.KeyProgram.C92_outcome"
   ],
   "note": "That time passes is a choice of the history: the theorems give the steps and ticks after which the attempt is over. With arbitrary generators a run may panic instead; with calm ones and complete messages the panics are those named."
  },
  {
   "property": "C93",
   "status": "proved",
   "theorems": [
    "Verif.Props.Print.C93_signature_text",
    "Verif.Props.Print.C93_output",
    "Verif.Props.Print.C93_not_attributed"
   ],
   "note": "Only fmt.Println to standard output in run_sig.go; lines are written whole. The line of a signature does not name its request (C93_not_attributed)."
  },
  {
   "property": "C94",
   "status": "proved",
   "theorems": [
    "Verif.Props.Encoding.C94_reads",
    "Verif.Props.Encoding.C94_roundtrip",
    "Verif.Props.Encoding.C94_writes"
   ],
   "note": "Readers deliver pieces, possibly with an error at the end of one; writers take everything or up to a limit."
  },
  {
   "property": "C95",
   "status": "partial",
   "theorems": [
    "Verif.Props.Encoding.C95_counterexample",
    "Verif.Props.Encoding.C95_new_partial"
   ],
   "note": "False of the code: reflect.TypeOf of a nil interface value is nil, so New returns nil for every type (C95_counterexample). C95_new_partial: nothing of the wrong kind is returned."
  },
  {
   "property": "C96",
   "status": "proved",
   "theorems": [
    "Verif.Props.PointHeap.C96_programs",
    "Verif.Props.PointHeap.C96_total",
    "Verif.Props.PointHeap.C96_failed_unmarshal"
   ],
   "note": "That math/big and btcec read operands before they write, and that btcec returns new integers, is trusted. C96_failed_unmarshal: a failed UnmarshalBinary can leave its receiver off the curve."
  },
  {
   "property": "C97",
   "status": "proved",
   "theorems": [
    "Verif.Props.Text.C97_scalar_text",
    "Verif.Props.Text.C97_point_text",
    "Verif.Props.Text.C97_unreduced_text",
    "Verif.Props.Text.C97_sizes",
    "Verif.Props.Text.C97_hash",
    "Verif.Props.Text.C97_coordinates",
    "Verif.Props.Text.C97_types"
   ],
   "note": "For numbers that are not reduced, which the package does not make, texts of equal scalars may differ (C97_unreduced_text)."
  },
  {
   "property": "C98",
   "status": "proved",
   "theorems": [
    "Verif.Props.KeyProgram.C98_ends",
    "Verif.Props.KeyProgram.C98_given",
    "Verif.Props.KeyProgram.C98_sends",
    "Verif.Props.KeyProgram.C98_taken",
    "Verif.Props.KeyStart.C98_started",
    "Verif.Props.KeyStart.C98_over",
    "Verif.Props.KeyStart.C98_together"
   ],
   "note": "That nothing is late is a hypothesis on the history (Prompt), not a claim about the scheduler; likewise that the process is there before the first start."
  },
  {
   "property": "C99",
   "status": "proved",
   "theorems": [
    "Verif.Props.Generation.C99_only",
    "Verif.Props.Generation.C99_sends",
    "Verif.Props.Generation.C99_key",
    "Verif.Props.Generation.C99_together"
   ],
   "note": "What kyber's generators do among honest members is a hypothesis (Generates, met by a toy generator of any size); that messages arrive in time is one too (Timely)."
  },
  {
   "property": "C100",
   "status": "proved",
   "theorems": [
    "Verif.Props.KeyProgram.C100_keys",
    "Verif.Props.KeyProgram.C100_no_panic",
    "Verif.Props.KeyProgram.C100_files",
    "Verif.Props.KeyStart.C100_on_schedule",
    "Verif.Props.KeyStart.C100_started"
   ],
   "note": "That nothing is late and that messages are carried in time are hypotheses (Prompt, Carried), and so is what kyber does (Generates); all are met by two processes with three members in KeyTogetherExample."
  },
  {
   "property": "C101",
   "status": "proved",
   "theorems": [
    "Verif.Props.Program.C101_all"
   ],
   "note": "Nothing is assumed about the runs. That nothing is late and that messages are carried in time are hypotheses (Prompt, Relayed), and so is what kyber does (Generates); all are met by two processes with three members in SignTogetherExample."
  },
  {
   "property": "C102",
   "status": "proved",
   "theorems": [
    "Verif.Props.KeyStart.C102_signs",
    "Verif.Props.KeyStart.C102_end_to_end"
   ],
   "note": "The hypotheses are those of C100 for the first start and of C101 for the second, with the files that the first start wrote; KeyTogetherExample and SignTogetherExample meet them with the same two processes."
  },
  {
   "property": "C103",
   "status": "proved",
   "theorems": [
    "Verif.Props.KeyStart.C103_relayed",
    "Verif.Props.KeyStart.C103_signs",
    "Verif.Props.KeyStart.C103_carried",
    "Verif.Props.KeyStart.C103_keys",
    "Verif.Props.KeyStart.C103_end_to_end"
   ],
   "note": "That the network works is a hypothesis on the history (Works); NetworkExample meets it with the two processes of KeyTogetherExample and SignTogetherExample and all their queues and connections."
  },
  {
   "property": "C104",
   "status": "proved",
   "theorems": [
    "Verif.Props.KeyStart.C104_any_quorum"
   ],
   "note": "What kyber does when members are silent is part of the hypothesis on generators (Generates: exactly those that take part qualify); QuorumExample meets the hypotheses with the first of two processes."
  },
  {
   "property": "C105",
   "status": "proved",
   "theorems": [
    "Verif.Props.KeyProgram.C105_no_keys",
    "Verif.Props.KeyProgram.C105_panics",
    "Verif.Props.KeyProgram.C105_first",
    "Verif.Props.KeyStart.C105_started"
   ],
   "note": "That each process panics is stated for the moment at which it can do nothing more by itself (C105_panics) and for each guest whose output is taken (C105_first). QuorumExample meets the hypotheses with the first of two processes, which has 2 of 3 members with a threshold of 2."
  },
  {
   "property": "C106",
   "status": "proved",
   "theorems": [
    "Verif.Props.Noise.C106_erased",
    "Verif.Props.Noise.C106_checks",
    "Verif.Props.Noise.C106_noise"
   ],
   "note": "Messages on which a check crashes are covered by C60. What passes the checks may change a run even if it is forged: the index is checked, not a signature of the sender."
  },
  {
   "property": "C107",
   "status": "proved",
   "theorems": [
    "Verif.Props.Kdats.C107_own_data",
    "Verif.Props.Kdats.C107_others",
    "Verif.Props.Kdats.C107_nothing_left"
   ],
   "note": ""
  },
  {
   "property": "C108",
   "status": "proved",
   "theorems": [
    "Verif.Props.NetTime.C108_refines",
    "Verif.Props.NetTime.C108_grace",
    "Verif.Props.NetTime.C108_delivers"
   ],
   "note": ""
  },
  {
   "property": "C109",
   "status": "proved",
   "theorems": [
    "Verif.Props.NetTime.C109_load",
    "Verif.Props.NetTime.C109_works"
   ],
   "note": "NetworkLoadExample meets the hypotheses of both theorems with two small processes."
  },
  {
   "property": "C110",
   "status": "proved",
   "theorems": [
    "Verif.Props.NetTime.C110_recovers"
   ],
   "note": "NetBackExample also shows that the bound of 302 s is met."
  },
  {
   "property": "C111",
   "status": "proved",
   "theorems": [
    "Verif.Props.Hostcomp.C111_compiles",
    "Verif.Props.Hostcomp.C111_twice",
    "Verif.Props.Hostcomp.C111_label"
   ],
   "note": ""
  },
  {
   "property": "C112",
   "status": "proved",
   "theorems": [
    "Verif.Props.Locks.C112_given_back",
    "Verif.Props.Locks.C112_exclusive",
    "Verif.Props.Locks.C112_waits_without",
    "Verif.Props.Locks.C112_unlocks_own"
   ],
   "note": ""
  },
  {
   "property": "C113",
   "status": "partial",
   "theorems": [
    "Verif.Props.Locks.C113_tables_partial",
    "Verif.Props.Locks.C113_counterexample"
   ],
   "note": "False of the code for the secrets of the guests (C113_counterexample): MarshalBinary of a scalar writes it, and two runs of one guest call it with no common mutex. C113_tables_partial proves it for all other data."
  },
  {
   "property": "C114",
   "status": "partial",
   "theorems": [
    "Verif.Props.Memory.C114_queues_partial",
    "Verif.Props.Memory.C114_firewall_partial",
    "Verif.Props.Memory.C114_ahead_partial",
    "Verif.Props.Memory.C114_freed_partial",
    "Verif.Props.Memory.C114_counterexample"
   ],
   "note": "False of the code for the buffer of a run (C114_counterexample): while the firewall forwards, a run keeps any number of messages for later stages, whoever they are from. C114_firewall_partial, C114_queues_partial, C114_ahead_partial and C114_freed_partial prove the rest."
  },
  {
   "property": "C115",
   "status": "proved",
   "theorems": [
    "Verif.Props.TimeParse.C115_exactly",
    "Verif.Props.TimeParse.C115_reads",
    "Verif.Props.TimeParse.C115_calendar",
    "Verif.Props.TimeParse.C115_missing",
    "Verif.Props.TimeParse.C115_jobs",
    "Verif.Props.TimeParse.C115_start"
   ],
   "note": ""
  },
  {
   "property": "C116",
   "status": "proved",
   "theorems": [
    "Verif.Props.Rabin.C116_generates",
    "Verif.Props.Rabin.C116_proper",
    "Verif.Props.Rabin.C116_key",
    "Verif.Props.Rabin.C116_run",
    "Verif.Props.Rabin.C116_together",
    "Verif.Props.Rabin.C116_fits",
    "Verif.Props.Rabin.C116_split",
    "Verif.Props.Rabin.C116_silent"
   ],
   "note": ""
  },
  {
   "property": "C117",
   "status": "proved",
   "theorems": [
    "Verif.Props.Hiding.C117_hides",
    "Verif.Props.Hiding.C117_fixed",
    "Verif.Props.Hiding.C117_published"
   ],
   "note": ""
  },
  {
   "property": "C118",
   "status": "proved",
   "theorems": [
    "Verif.Props.RabinRun.C118_calm_dkg",
    "Verif.Props.RabinRun.C118_calm_dss",
    "Verif.Props.RabinRun.C118_share",
    "Verif.Props.RabinRun.C118_signs",
    "Verif.Props.RabinRun.C118_verifies"
   ],
   "note": ""
  },
  {
   "property": "C119",
   "status": "proved",
   "theorems": [
    "Verif.Props.RabinProgram.C119_gives_up",
    "Verif.Props.RabinProgram.C119_saved",
    "Verif.Props.RabinProgram.C119_calm",
    "Verif.Props.RabinProgram.C119_reaches",
    "Verif.Props.RabinProgram.C119_prints"
   ],
   "note": ""
  },
  {
   "property": "C120",
   "status": "proved",
   "theorems": [
    "Verif.Props.RabinTogether.C120_keys",
    "Verif.Props.RabinTogether.C120_absent",
    "Verif.Props.RabinTogether.C120_any_quorum"
   ],
   "note": ""
  },
  {
   "property": "C121",
   "status": "proved",
   "theorems": [
    "Verif.Props.Hash.C121_written",
    "Verif.Props.Hash.C121_length",
    "Verif.Props.Hash.C121_pad",
    "Verif.Props.Hash.C121_tables",
    "Verif.Props.Hash.C121_calls",
    "Verif.Props.Hash.C121_session",
    "Verif.Props.Hash.C121_session_same"
   ],
   "note": ""
  },
  {
   "property": "C122",
   "status": "proved",
   "theorems": [
    "Verif.Props.Console.C122_reads",
    "Verif.Props.Console.C122_left",
    "Verif.Props.Console.C122_exits",
    "Verif.Props.Console.C122_bounded",
    "Verif.Props.Console.C122_settled",
    "Verif.Props.Console.C122_kyber",
    "Verif.Props.Console.C122_signed",
    "Verif.Props.Console.C122_counterexample_twice"
   ],
   "note": ""
  },
  {
   "property": "C123",
   "status": "proved",
   "theorems": [
    "Verif.Props.Spoiler.C123_keys",
    "Verif.Props.Spoiler.C123_refused",
    "Verif.Props.Spoiler.C123_alone",
    "Verif.Props.Spoiler.C123_stopped",
    "Verif.Props.Spoiler.C123_counterexample"
   ],
   "note": ""
  },
  {
   "property": "C124",
   "status": "proved",
   "theorems": [
    "Verif.Props.Steer.C124_chosen",
    "Verif.Props.Steer.C124_forged",
    "Verif.Props.Steer.C124_counterexample"
   ],
   "note": ""
  },
  {
   "property": "C125",
   "status": "proved",
   "theorems": [
    "Verif.Props.Heard.C125_key",
    "Verif.Props.Heard.C125_veto_key",
    "Verif.Props.Heard.C125_veto_sig",
    "Verif.Props.Heard.C125_counterexample_key",
    "Verif.Props.Heard.C125_counterexample_sig"
   ],
   "note": ""
  }
 ]
}