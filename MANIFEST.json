{
 "claims": [
  {
   "property": "C01",
   "status": "partial",
   "theorems": [
    "Verif.Props.readBytes_in_bounds_partial",
    "Verif.Props.readBE_safe",
    "Verif.Props.readBytes_ub_iff",
    "Verif.Props.readVarStr_violated",
    "Verif.Props.readVarStr_in_bounds_partial"
   ],
   "note": "Fixed-width reads proved for all buffers. For attacker-chosen 64-bit lengths the claim is false: readVarStr_violated gives a buffer whose length prefix wraps the bounds check; readBytes_ub_iff characterises exactly when."
  },
  {
   "property": "C02",
   "status": "proved",
   "theorems": [
    "Verif.Props.integer_roundtrip",
    "Verif.Props.integer_le_roundtrip",
    "Verif.Props.varStr_roundtrip",
    "Verif.Props.bytes_roundtrip",
    "Verif.Props.vector_roundtrip",
    "Verif.Props.integer_encoding_bijective"
   ],
   "note": ""
  },
  {
   "property": "C03",
   "status": "proved",
   "theorems": [
    "Verif.Props.input_roundtrip",
    "Verif.Props.output_roundtrip",
    "Verif.Props.outputId_roundtrip",
    "Verif.Props.kernel_roundtrip",
    "Verif.Props.body_roundtrip",
    "Verif.Props.tx_roundtrip",
    "Verif.Props.header_roundtrip",
    "Verif.Props.block_roundtrip",
    "Verif.Props.compact_roundtrip",
    "Verif.Props.kernel_unknown_features_violated",
    "Verif.Props.unsorted_body_accepted",
    "Verif.Props.kernel_message_injective"
   ],
   "note": "Well-formedness is ValidKernel/ValidBody/ValidHeader; kernels with unknown features bytes are accepted by the deserializer but do not round trip (kernel_unknown_features_violated)."
  },
  {
   "property": "C04",
   "status": "proved",
   "theorems": [
    "Verif.Props.cycle_roundtrip",
    "Verif.Props.pow_roundtrip"
   ],
   "note": ""
  },
  {
   "property": "C05",
   "status": "partial",
   "theorems": [
    "Verif.Props.pow_hash_canonical_partial",
    "Verif.Props.pow_hash_of_content_partial",
    "Verif.Props.pow_hash_violated"
   ],
   "note": "False in general: padding bits of the packed cycle are hashed but not decoded (pow_hash_violated). Holds when edge_bits is a multiple of 4 or padding is zero."
  },
  {
   "property": "C06",
   "status": "partial",
   "theorems": [
    "Verif.Props.fee_roundtrip_partial",
    "Verif.Props.fee_roundtrip_violated",
    "Verif.Props.fee_json_roundtrip_partial",
    "Verif.Props.fee_json_violated"
   ],
   "note": "The round trip holds exactly for shift < 16 and amount < 2^40 (wire) and shift = 0 (JSON); outside it provably fails."
  },
  {
   "property": "C07",
   "status": "proved",
   "theorems": [
    "Verif.Props.payload_roundtrip",
    "Verif.Props.message_header_accepted_iff",
    "Verif.Props.message_received",
    "Verif.Props.modest_messages_fit",
    "Verif.Props.error_message_violated",
    "Verif.Props.hand_message_violated"
   ],
   "note": "All message classes except the responses of the unfinished segmented sync. Error messages round-trip as payloads, but their documented maximum of zero makes every receiver refuse them."
  },
  {
   "property": "C08",
   "status": "proved",
   "theorems": [
    "Verif.Props.slate_roundtrip",
    "Verif.Props.slate_bad_signature_undefined",
    "Verif.Props.slate_nrd_height_lost"
   ],
   "note": "Every well-formed slate; the conversions of signatures by secp256k1 are parameters."
  },
  {
   "property": "C09",
   "status": "partial",
   "theorems": [
    "Verif.Props.armor_roundtrip_iff",
    "Verif.Props.armor_roundtrip_partial",
    "Verif.Props.armor_zero_checksum_violated",
    "Verif.Props.unarmor_ignores_spaces",
    "Verif.Props.slatepack_message_roundtrip",
    "Verif.Props.slatepack_roundtrip_partial",
    "Verif.Props.slatepack_age_roundtrip_partial",
    "Verif.Props.slatepack_unreadable_partial"
   ],
   "note": "The armor round trip holds if and only if the first checksum byte is not zero. The message layer (plain and encrypted) round-trips; SHA-256d and the curve check are parameters; age is the parameter `AgeOps` in the general theorems and the model of the code in `slatepack_age_roundtrip_partial`."
  },
  {
   "property": "C10",
   "status": "proved",
   "theorems": [
    "Verif.Props.base58_encodes",
    "Verif.Props.base58_roundtrip",
    "Verif.Props.base58_injective",
    "Verif.Props.base58_plain_roundtrip",
    "Verif.Props.base58_check_roundtrip",
    "Verif.Props.base58_check_sound"
   ],
   "note": ""
  },
  {
   "property": "C100",
   "status": "partial",
   "theorems": [
    "Verif.Props.upgrade_keeps_partial",
    "Verif.Props.newer_refused",
    "Verif.Props.upgrade_from_two_partial",
    "Verif.Props.upgrade_from_zero_partial",
    "Verif.Props.always_opens",
    "Verif.Props.reopening_invisible_partial",
    "Verif.Props.stored_records_kept_partial",
    "Verif.Props.latest_slate",
    "Verif.Props.other_slates_kept",
    "Verif.Props.saved_slate_loaded",
    "Verif.Props.first_session_slatepacks_lost_violated",
    "Verif.Props.version_one_locked_out_violated"
   ],
   "note": "Everything but slatepacks is kept in every history of a wallet of this program, and everything once it was opened twice. Partial because the code loses the slatepacks of a new wallet's first session, and locks out wallets of schema 1."
  },
  {
   "property": "C101",
   "status": "partial",
   "theorems": [
    "Verif.Props.delete_needs_password",
    "Verif.Props.create_overwrites_nothing_partial",
    "Verif.Props.delete_leaves_others_partial",
    "Verif.Props.wallet_kept_partial",
    "Verif.Props.create_then_login_partial",
    "Verif.Props.nested_wallet_deleted_violated",
    "Verif.Props.name_with_separator_violated",
    "Verif.Props.hidden_name_violated",
    "Verif.Props.absolute_name_violated",
    "Verif.Props.spaces_violated",
    "Verif.Props.change_password_ignored_violated"
   ],
   "note": "Proved for all histories under names that are single path components. Partial because names are not checked: with separators, leading dots or spaces the code violates it (witnesses), and the RPC that changes the password does nothing."
  },
  {
   "property": "C102",
   "status": "partial",
   "theorems": [
    "Verif.Props.base32_text_roundtrip",
    "Verif.Props.base32_accepts_iff",
    "Verif.Props.slatepack_key_valid",
    "Verif.Props.onion_roundtrip",
    "Verif.Props.onion_accepts_iff",
    "Verif.Props.onion_unique_partial",
    "Verif.Props.onion_version_violated",
    "Verif.Props.slatepack_prefix_violated",
    "Verif.Props.slatepack_and_onion",
    "Verif.Props.onion_not_slatepack"
   ],
   "note": "The set of accepted onion texts is characterised exactly. Partial because the code does not look at the version of an onion address nor at the prefix of a slatepack address (both shown for all keys); the rest holds for all texts."
  },
  {
   "property": "C103",
   "status": "partial",
   "theorems": [
    "Verif.Props.payment_message_injective",
    "Verif.Props.proof_required",
    "Verif.Props.proof_not_asked",
    "Verif.Props.receiver_confirms",
    "Verif.Props.foreign_proof_refused",
    "Verif.Props.proof_exchange_completes",
    "Verif.Props.proof_means_received",
    "Verif.Props.proof_and_delivery_violated",
    "Verif.Props.stored_proof_unsigned_violated"
   ],
   "note": "What a proof means is proved for all histories. Partial because the code does not offer proofs for every way of sending (for slatepack addresses, the only ones delivered to, none is asked for) and does not keep the signed proof with the transaction."
  },
  {
   "property": "C104",
   "status": "partial",
   "theorems": [
    "Verif.Props.resync_repairs",
    "Verif.Props.resync_keeps_headers_partial",
    "Verif.Props.resync_stuck_violated",
    "Verif.Props.first_start",
    "Verif.Props.restart_keeps_partial",
    "Verif.Props.genesis_twice_violated"
   ],
   "note": "That headers survive a resync and a restart is proved. Partial because the code violates the rest: after a resync no block is accepted, only a snapshot helps, which is not asked for below 10080 headers; and a node opened twice before its first header gets stuck at height 1 if that header comes singly."
  },
  {
   "property": "C105",
   "status": "partial",
   "theorems": [
    "Verif.Props.rest_by_height",
    "Verif.Props.rest_by_hash",
    "Verif.Props.rest_by_output",
    "Verif.Props.rest_answers",
    "Verif.Props.rpc_one_parameter",
    "Verif.Props.rest_height_text_violated",
    "Verif.Props.rest_leading_zero_violated",
    "Verif.Props.rpc_conflict_violated",
    "Verif.Props.rpc_output_wins_violated",
    "Verif.Props.header_height_violated"
   ],
   "note": "Proved for requests in their documented form. Partial because the code violates the rest: other text is taken for a height, contradicting parameters are not refused, and REST answers a header's height from the candidate chain while JSON-RPC and the blocks use the confirmed one."
  },
  {
   "property": "C106",
   "status": "partial",
   "theorems": [
    "Verif.Props.outputs_by_height",
    "Verif.Props.listed_height_partial",
    "Verif.Props.outputs_query",
    "Verif.Props.outputs_above_tip_violated",
    "Verif.Props.recreated_output_violated"
   ],
   "note": "Proved for ranges from 1 to one above the tip, and exactly for chains whose outputs have distinct commitments. Partial because the code violates the rest: a start further above the tip is an error, and an output that was spent is listed again under its old block if its commitment returns."
  },
  {
   "property": "C107",
   "status": "partial",
   "theorems": [
    "Verif.Props.kernel_relayed_partial",
    "Verif.Props.tx_relayed_partial",
    "Verif.Props.header_relayed_partial",
    "Verif.Props.header_bytes_kept",
    "Verif.Props.block_relayed_partial",
    "Verif.Props.payload_relayed_partial",
    "Verif.Props.payload_bytes_kept",
    "Verif.Props.segment_bytes_kept",
    "Verif.Props.lock_height_lost_violated",
    "Verif.Props.fee_bits_violated",
    "Verif.Props.header_padding_violated",
    "Verif.Props.trailing_bytes_violated"
   ],
   "note": "Proved from the bytes accepted, with no assumption that the sender was this program. Partial because the code violates the rest: unknown kernel features and fields foreign to the kind of a kernel (version 1), padding bits of the cycle, spare bits of the fee, trailing bytes."
  },
  {
   "property": "C108",
   "status": "proved",
   "theorems": [
    "Verif.Props.signed_kernels_accepted",
    "Verif.Props.single_kernel_iff",
    "Verif.Props.batch_checks_each_kernel",
    "Verif.Props.unreadable_kernel_rejected",
    "Verif.Props.one_unsigned_kernel",
    "Verif.Props.invalid_batch_rejected",
    "Verif.Props.valid_terms_accepted",
    "Verif.Props.finalized_kernel_accepted",
    "Verif.Props.signed_snapshot_accepted",
    "Verif.Props.single_kernel_body"
   ],
   "note": "The batch equation is that of the library's documentation (its source is not in the repository); coefficients are arbitrary except that the first is one. The bound counts coefficient vectors: the library derives them from a hash of the batch, which the model leaves open."
  },
  {
   "property": "C109",
   "status": "partial",
   "theorems": [
    "Verif.Props.shown_address_opens_partial",
    "Verif.Props.new_address_fresh",
    "Verif.Props.current_address",
    "Verif.Props.tor_listener_partial",
    "Verif.Props.restored_wallet_violated",
    "Verif.Props.second_login_violated",
    "Verif.Props.logout_leaves_service_violated",
    "Verif.Props.logout_before_tor_violated",
    "Verif.Props.retry_tor_violated"
   ],
   "note": "Violated by: a restored wallet (starts again at the first address), a second login after an address change, a logout after an address change or before Tor is ready, and retry_tor. tor_listener_partial covers every history without these. The round trip has the checksum restriction of C09. Wallets with the same seed under two names are excluded (distinct seeds); overflow of the index is not modelled."
  },
  {
   "property": "C11",
   "status": "partial",
   "theorems": [
    "Verif.Props.bech32_accepts_only",
    "Verif.Props.slatepack_address_accepts_only",
    "Verif.Props.base32_roundtrip",
    "Verif.Props.bech32_checksum",
    "Verif.Props.bech32_single_error",
    "Verif.Props.bech32_roundtrip_partial",
    "Verif.Props.bech32_address_partial",
    "Verif.Props.slatepack_address_roundtrip",
    "Verif.Props.bech32_long_violated",
    "Verif.Props.bech32_decode_safe"
   ],
   "note": "Texts longer than 90 characters are produced but refused by the decoder (bech32_long_violated); proved for everything shorter, in particular for every 32-byte slatepack address."
  },
  {
   "property": "C110",
   "status": "partial",
   "theorems": [
    "Verif.Props.reply_in_step",
    "Verif.Props.error_in_step",
    "Verif.Props.commands_in_step",
    "Verif.Props.add_service_partial",
    "Verif.Props.two_wallets_served",
    "Verif.Props.value_lines_violated",
    "Verif.Props.running_service_violated",
    "Verif.Props.third_service_violated",
    "Verif.Props.third_wallet_violated"
   ],
   "note": "Violated: answers with a value of several lines end the request early and leave the rest unread, so with two services running no further one can be added and the next heartbeat fails; a single running service is not recognised. What Tor answers is taken from its control protocol, not from code in the repository."
  },
  {
   "property": "C111",
   "status": "partial",
   "theorems": [
    "Verif.Props.started",
    "Verif.Props.ban_partial",
    "Verif.Props.not_banned",
    "Verif.Props.pardoned",
    "Verif.Props.unban_all_partial",
    "Verif.Props.unban_all_violated",
    "Verif.Props.restart_violated",
    "Verif.Props.old_peer_violated",
    "Verif.Props.shown",
    "Verif.Props.peer_record",
    "Verif.Props.peer_request",
    "Verif.Props.ban_request",
    "Verif.Props.peer_get_changes_nothing",
    "Verif.Props.ipv6_violated"
   ],
   "note": "Violated: a restart forgets every ban, the ban of a peer not heard of for a week is forgotten within the half minute, a resync leaves addresses banned that were never contacted, and IPv6 addresses cannot be named in a request. ban_partial is exact (refused before, admitted after three hours) for peers never contacted or heard of within the week less three hours."
  },
  {
   "property": "C112",
   "status": "proved",
   "theorems": [
    "Verif.Props.siphash_is",
    "Verif.Props.edge_ends",
    "Verif.Props.proof_accepted",
    "Verif.Props.short_id_is"
   ],
   "note": "Blake2b is a parameter (its digest gives the keys); words are read as on little-endian machines. The specification of SipHash is the published one, that of the graphs the one of the Grin reference implementation; the proof of the main network's genesis block is checked as an example."
  },
  {
   "property": "C113",
   "status": "proved",
   "theorems": [
    "Verif.Props.coinbase_built",
    "Verif.Props.coinbase_pays_exactly",
    "Verif.Props.coinbase_found",
    "Verif.Props.own_signature_valid"
   ],
   "note": "The curve is any module over any field; that the library's commitments, keys and signatures are read as they were written, and that no amount below 2^64 commits to the point at infinity, are hypotheses (`CoinLaws`), met by a concrete instance. The random nonce is an argument."
  },
  {
   "property": "C114",
   "status": "partial",
   "theorems": [
    "Verif.Props.slate_version_agreed",
    "Verif.Props.refused_changes_nothing",
    "Verif.Props.sent_not_posted",
    "Verif.Props.finalized_answer_partial",
    "Verif.Props.finished_transaction",
    "Verif.Props.posted_was_started",
    "Verif.Props.repost_exact",
    "Verif.Props.bad_address_violated",
    "Verif.Props.finalized_not_posted_violated",
    "Verif.Props.finalized_other_slate_violated",
    "Verif.Props.canceled_is_posted_violated",
    "Verif.Props.lost_connection_violated"
   ],
   "note": "Partial because the code violates the rest: FINALIZED says neither that the node took the transaction nor that it is this payment's, a canceled payment is posted on a stranger's request, an unreadable address is taken as none, and a connection lost between two calls is used as a null pointer. Whether a handed-in slate passes the checks of finalizing is a parameter (the algebra is C47)."
  },
  {
   "property": "C115",
   "status": "partial",
   "theorems": [
    "Verif.Props.every_request_answered",
    "Verif.Props.request_read",
    "Verif.Props.answer_id_partial",
    "Verif.Props.wrong_method",
    "Verif.Props.call_round_trip",
    "Verif.Props.secrets_not_logged_partial",
    "Verif.Props.malformed_request_logged_violated",
    "Verif.Props.session_token_logged_violated",
    "Verif.Props.mismatch_id_violated"
   ],
   "note": "Partial because the code violates the rest: a request that is not JSON is logged in full, session tokens are logged with every request that spends, and a payment refused for the receiver's slate version is answered with the id null. JSON text is jsoncpp's, numbers with a fraction are left out."
  },
  {
   "property": "C116",
   "status": "partial",
   "theorems": [
    "Verif.Props.update_in_force",
    "Verif.Props.restart_takes_last_update",
    "Verif.Props.update_survives_restart_partial",
    "Verif.Props.too_few_peers_refused",
    "Verif.Props.listed_peers",
    "Verif.Props.unlisted_peers",
    "Verif.Props.starts_with_any_file",
    "Verif.Props.file_numbers",
    "Verif.Props.earlier_update_lost_violated",
    "Verif.Props.reuse_changes_violated",
    "Verif.Props.accepted_update_wipes_violated",
    "Verif.Props.one_bad_entry_violated",
    "Verif.Props.failed_update_in_force_violated",
    "Verif.Props.other_directory_violated",
    "Verif.Props.min_above_max_violated",
    "Verif.Props.probability_cut_violated"
   ],
   "note": "Partial because the code violates the rest: only the last update since the start survives a restart (proved exactly: restart_takes_last_update), an accepted max_peers beyond an int makes the next start discard the whole configuration, an update that fails can have taken effect in part, and with DATA_PATH set the file is written where no start looks. The address parser, the resolver and the hash of an address are parameters; JSON text is jsoncpp's."
  },
  {
   "property": "C117",
   "status": "partial",
   "theorems": [
    "Verif.Props.tor_call_partial",
    "Verif.Props.tor_calls_partial",
    "Verif.Props.torrc_lines",
    "Verif.Props.own_settings_lost_violated",
    "Verif.Props.bridges_pile_up_violated",
    "Verif.Props.left_out_stays_violated",
    "Verif.Props.other_bridge_stays_violated",
    "Verif.Props.bridge_writes_settings_violated",
    "Verif.Props.bridge_ends_program_violated",
    "Verif.Props.bridget_without_bridges_violated",
    "Verif.Props.other_file_system_violated"
   ],
   "note": "Partial because the code violates the rest: the user's own settings are deleted when bridges are turned on, lists given twice add up, a bridge that is not one for obfs4 cannot be removed, a bridge with a line feed writes any setting or ends the program, a data directory with Bridge in its name breaks the switch, and a rename across file systems ends the program. Proved for the rest: ordinary directories and bridges, any sequence of calls."
  },
  {
   "property": "C118",
   "status": "partial",
   "theorems": [
    "Verif.Props.tx_record_read_back",
    "Verif.Props.tx_record_roundtrip_partial",
    "Verif.Props.tx_record_newer_refused",
    "Verif.Props.tx_record_settles",
    "Verif.Props.tx_record_seconds",
    "Verif.Props.tx_record_lossy_violated",
    "Verif.Props.list_txs_exact_partial",
    "Verif.Props.list_txs_outputs",
    "Verif.Props.list_txs_id_cut_violated",
    "Verif.Props.list_txs_single_id_violated",
    "Verif.Props.list_txs_far_end_violated",
    "Verif.Props.list_txs_null_violated",
    "Verif.Props.list_txs_kinds_violated",
    "Verif.Props.tx_type_names"
   ],
   "note": "Partial because the code violates the rest: empty texts come back as none, an id of more than 32 bits names another transaction, an ids that is no list lists everything, an end of the range from the year 2262 on is undefined behaviour or before 1970, an empty list is null, and kinds cannot be asked for by the names the list shows."
  },
  {
   "property": "C119",
   "status": "partial",
   "theorems": [
    "Verif.Props.http_answer",
    "Verif.Props.http_calls_partial",
    "Verif.Props.http_stale_violated",
    "Verif.Props.http_no_length_violated",
    "Verif.Props.http_request",
    "Verif.Props.http_request_injective",
    "Verif.Props.tor_call",
    "Verif.Props.tor_refused_violated"
   ],
   "note": "Partial because the code violates the rest: bytes after an answer stay with the client and are taken for the answer to the next call, answers without the length of a body in advance are errors, and the code of the proxy's reply is not looked at."
  },
  {
   "property": "C12",
   "status": "proved",
   "theorems": [
    "Verif.Props.mnemonic_roundtrip",
    "Verif.Props.mnemonic_accepts_only",
    "Verif.Props.mnemonic_spacing",
    "Verif.Props.wordList_good",
    "Verif.Props.mnemonic_roundtrip_english",
    "Verif.Props.mnemonic_long_undefined"
   ],
   "note": "For the five supported lengths and any good word list, and for the English list in the code. Longer entropy (which the API does not refuse) shifts out of range: mnemonic_long_undefined."
  },
  {
   "property": "C120",
   "status": "partial",
   "theorems": [
    "Verif.Props.time_text",
    "Verif.Props.remote_height",
    "Verif.Props.remote_header_partial",
    "Verif.Props.remote_tip_partial",
    "Verif.Props.remote_post_partial",
    "Verif.Props.remote_start_violated",
    "Verif.Props.remote_coins_violated",
    "Verif.Props.remote_scan_violated",
    "Verif.Props.remote_time_violated",
    "Verif.Props.remote_refused_violated",
    "Verif.Props.remote_header_overflow_violated"
   ],
   "note": "Partial because the code violates the rest: no wallet starts on a node elsewhere, coins are not asked for, times of headers are read in another zone, refusals of nodes of another program are taken for success, and a header from the node may be written out of bounds."
  },
  {
   "property": "C121",
   "status": "partial",
   "theorems": [
    "Verif.Props.owner_strangers_partial",
    "Verif.Props.owner_session_lasts_partial",
    "Verif.Props.owner_change",
    "Verif.Props.owner_login",
    "Verif.Props.owner_password_needed",
    "Verif.Props.owner_password_enough",
    "Verif.Props.owner_logout_violated",
    "Verif.Props.owner_retry_violated"
   ],
   "note": "Partial because the code violates the rest: logging out takes the number of the session and not its key, and Tor is started anew before the token is looked at. A key shorter than the stored string is undefined behaviour (C48) and counts as no stranger's request."
  },
  {
   "property": "C122",
   "status": "proved",
   "theorems": [
    "Verif.Props.sender_pays",
    "Verif.Props.others_get_the_amount"
   ],
   "note": "The equation holds in any group. That values cannot be turned into blinding factors is a hypothesis of the second theorem (the generators are independent); that others know the logarithm of their excess is what the kernel signature shows, and is a hypothesis too."
  },
  {
   "property": "C123",
   "status": "partial",
   "theorems": [
    "Verif.Props.finalized_fee_partial",
    "Verif.Props.finalized_fee_low_violated"
   ],
   "note": "Proved for answers that add one output and nothing else. Violated otherwise: the fee is not compared with the weight of the finished transaction."
  },
  {
   "property": "C124",
   "status": "proved",
   "theorems": [
    "Verif.Props.honest_payment_completes",
    "Verif.Props.honest_payment_admitted"
   ],
   "note": "That nothing cancels (sums of keys, nonces, offsets and blinding factors are not zero; true but for a negligible part of random choices) is a hypothesis, as is the correctness of the libraries: what is signed verifies, range proofs made verify, bytes of scalars and points read back. The slates are handed over as they are; that their encodings read back is C87 and C88. Coin selection and storing are separate claims."
  },
  {
   "property": "C125",
   "status": "partial",
   "theorems": [
    "Verif.Props.last_hashes",
    "Verif.Props.last_kernel_hashes",
    "Verif.Props.last_answers",
    "Verif.Props.listing_pages",
    "Verif.Props.outputs_by_ids",
    "Verif.Props.listing_default_violated"
   ],
   "note": "Partial because the code violates the rest: without parameters the listing starts behind the first output. Starts of 2^63 and more, for which the number of the position overflows, are left out. The answers are lists; writing them as JSON is not modelled here."
  },
  {
   "property": "C126",
   "status": "partial",
   "theorems": [
    "Verif.Props.letter_arrives_partial",
    "Verif.Props.payment_by_letters_partial",
    "Verif.Props.letter_private_partial"
   ],
   "note": "Proved for texts whose check sum does not begin with a zero byte, because the others cannot be read back (`armor_zero_checksum_violated` of C09): about one payment in 128 gets stuck. The hypotheses of C124 apply; fees are below 2^40. That encryption and decryption are inverse is proved for the code's own age in C92 (`age_works`)."
  },
  {
   "property": "C127",
   "status": "partial",
   "theorems": [
    "Verif.Props.refresh_keeps_total",
    "Verif.Props.payment_received",
    "Verif.Props.payment_sent_partial",
    "Verif.Props.entire_balance_sent_partial"
   ],
   "note": "Proved for payments of a given amount with strategies other than ALL. A payment that leaves no change is not listed as sent (`sent_without_change_violated` of C45), which is why the last clause asks for change; sends of the entire balance are covered by `entire_balance_sent_partial`, without the listing; the strategy ALL with a given amount does not always balance (C43). The chain is assumed not to have lost coins the wallet counts (`Calm`, `Agrees`)."
  },
  {
   "property": "C128",
   "status": "partial",
   "theorems": [
    "Verif.Props.send_request_roundtrip",
    "Verif.Props.request_words",
    "Verif.Props.unnamed_tx_refused",
    "Verif.Props.send_request_reads_partial",
    "Verif.Props.estimate_reads_same",
    "Verif.Props.cancel_request_partial",
    "Verif.Props.repost_request",
    "Verif.Props.amount_text_violated",
    "Verif.Props.change_outputs_violated",
    "Verif.Props.cancel_other_violated",
    "Verif.Props.cancel_unknown_violated"
   ],
   "note": "Proved for numbers that fit. The code violates the rest: text is read up to the first character that is no digit and a minus wraps around (`amount_text_violated`), the number of change outputs is cut to eight bits (`change_outputs_violated`), transaction numbers are cut to 32 bits (`cancel_other_violated`), and canceling what does not exist is answered with success (`cancel_unknown_violated`)."
  },
  {
   "property": "C129",
   "status": "partial",
   "theorems": [
    "Verif.Props.list_outputs_exact_partial",
    "Verif.Props.listed_sums",
    "Verif.Props.listed_spendable_violated"
   ],
   "note": "The lines and the sums are proved; those listed as spendable add up to spendable and immature together. The last clause is violated (`listed_spendable_violated`). Of several labels only the first is listed."
  },
  {
   "property": "C13",
   "status": "partial",
   "theorems": [
    "Verif.Props.path_text_accepts_only",
    "Verif.Props.path_hex_accepts_only",
    "Verif.Props.path_text_roundtrip_partial",
    "Verif.Props.path_text_violated",
    "Verif.Props.path_text_lax",
    "Verif.Props.path_hex_roundtrip",
    "Verif.Props.proof_message_roundtrip_partial",
    "Verif.Props.proof_message_wallet",
    "Verif.Props.proof_message_violated"
   ],
   "note": "Text: round trip if and only if all indices are below 2^31. Range-proof messages: exact for the paths the wallet uses, false in general."
  },
  {
   "property": "C130",
   "status": "proved",
   "theorems": [
    "Verif.Props.open_keeps_tables",
    "Verif.Props.open_refuses",
    "Verif.Props.open_resumes",
    "Verif.Props.tables_apart",
    "Verif.Props.block_database_opens"
   ],
   "note": "RocksDB itself is modelled as a list of named tables: opening asks for all of them, creating adds one at the end (`rocksOpen`, `createTables`)."
  },
  {
   "property": "C131",
   "status": "partial",
   "theorems": [
    "Verif.Props.strangers_keep_coins",
    "Verif.Props.stranger_sets_total_violated"
   ],
   "note": "The first sentence is proved as long as key indices do not run out (2³² of them) and unused keys give new commitments (C49 shows when they do not). The second is violated: the total counts what is not confirmed, with wraparound (`stranger_sets_total_violated`)."
  },
  {
   "property": "C132",
   "status": "partial",
   "theorems": [
    "Verif.Props.receive_over_tor",
    "Verif.Props.finalize_over_tor",
    "Verif.Props.refused_over_tor",
    "Verif.Props.unread_changes_nothing",
    "Verif.Props.version_agreed_partial",
    "Verif.Props.version_asked",
    "Verif.Props.coinbase_request",
    "Verif.Props.version_wraps_violated",
    "Verif.Props.no_version_violated",
    "Verif.Props.coinbase_documented_violated"
   ],
   "note": "The exchange of slates is proved through the JSON-RPC envelope, for slates JSON can carry (C87). Violated: versions are cut to 16 bits (`version_wraps_violated`), an empty list of versions counts as no answer (`no_version_violated`), and a request for a coinbase as documented, a list without a session's token, is always refused (`coinbase_documented_violated`). What the wallet does with a slate is a parameter here and modelled under C45-C49, C123."
  },
  {
   "property": "C133",
   "status": "partial",
   "theorems": [
    "Verif.Props.documented_options",
    "Verif.Props.command_line_ends_partial",
    "Verif.Props.ambiguous_option_hangs_violated",
    "Verif.Props.unknown_option_ignored_violated",
    "Verif.Props.shared_node_without_port_violated",
    "Verif.Props.shared_node_port_wraps_violated",
    "Verif.Props.shared_node_without_value_violated"
   ],
   "note": "Documented arguments mean what the help text says, and reading ends unless an abbreviation fits two options (`--h`, `--he`, a value without a name): then it never does (`ambiguous_option_hangs_violated`). Also violated: unknown options are passed over (`--flonet` starts on the main network), a shared node without a port is read past the end of a vector, its port is cut to 16 bits, and `--shared-node` without a value starts a node of its own."
  },
  {
   "property": "C134",
   "status": "partial",
   "theorems": [
    "Verif.Props.snapshot_served_partial",
    "Verif.Props.served_leaves_are_old_violated",
    "Verif.Props.without_archive_none_served_violated",
    "Verif.Props.snapshot_large_cut_violated",
    "Verif.Props.snapshot_stale_refused"
   ],
   "note": "Hashes and data of files below 4 GiB arrive exactly. Violated: the unspent leaves served are always those of the archive the node itself once started from (`served_leaves_are_old_violated`), a node that had no such archive can serve none (`without_archive_none_served_violated`), and larger files are cut (`snapshot_large_cut_violated`)."
  },
  {
   "property": "C135",
   "status": "partial",
   "theorems": [
    "Verif.Props.validator_iff",
    "Verif.Props.found_invalid_iff",
    "Verif.Props.round_bans_iff",
    "Verif.Props.banned_broke_rules",
    "Verif.Props.honest_never_banned",
    "Verif.Props.admitted_never_banned",
    "Verif.Props.unreadable_tip_bans_violated"
   ],
   "note": "Holds in every run in which the confirmed tip can be read and the txhashset is in order (or absent). Violated otherwise: if the tip cannot be read from the database, or is missing, the peer of any transaction is banned (`unreadable_tip_bans_violated`). The range proofs and signatures are parameters; rules from the last hard fork on."
  },
  {
   "property": "C136",
   "status": "proved",
   "theorems": [
    "Verif.Props.merged_obeys",
    "Verif.Props.validator_iff"
   ],
   "note": "In any commitment group; batch verification is assumed to accept a batch exactly if it accepts each item, the sum of offsets to be right, hashes of the outputs not to collide, and no sum to be the point at infinity. `validator_iff` turns the rules into acceptance by the validator."
  },
  {
   "property": "C137",
   "status": "partial",
   "theorems": [
    "Verif.Props.shown_after_views",
    "Verif.Props.chain_now_decides_partial",
    "Verif.Props.settled_for_good",
    "Verif.Props.undone_stays_received_violated",
    "Verif.Props.reorg_unlocks_violated",
    "Verif.Props.remined_height_stale_violated",
    "Verif.Props.lower_chain_unseen_violated"
   ],
   "note": "Proved for every sequence of answers from a node whose chain does not get lower: the exact state of each output afterwards, and that for confirmed outputs that are not set aside only the chain as it is now matters. The code violates the rest: a payment undone stays listed as received with the height of a block that is gone; a coin set aside is freed when its own block is undone and mined again, and is then picked for a second payment; a re-mined coinbase keeps its old height and is offered too early; while the new chain is lower nothing is updated."
  },
  {
   "property": "C138",
   "status": "partial",
   "theorems": [
    "Verif.Props.sent_in_order_partial",
    "Verif.Props.all_sent_partial",
    "Verif.Props.stuck_for_good",
    "Verif.Props.send_stuck_violated",
    "Verif.Props.sent_twice_violated",
    "Verif.Props.buffer_freed_violated"
   ],
   "note": "Proved if no two calls overlap and the system takes each message at once: whole, in order, once, none left. In general the code violates the property: a message pushed between the completion handler's check and its own leaves the connection mute for good (proved for every continuation); two threads that both find the queue empty make a message go out twice; and whenever the system takes only part of a message the rest is read from a buffer that has been freed."
  },
  {
   "property": "C139",
   "status": "partial",
   "theorems": [
    "Verif.Props.ordered_never_stuck",
    "Verif.Props.node_never_stuck_partial",
    "Verif.Props.stuck_stays",
    "Verif.Props.node_stuck_violated",
    "Verif.Props.whole_node_stuck_violated"
   ],
   "note": "Proved for any locks with ranks, any number of threads and every schedule (ordered_never_stuck), and for all modelled operations of a node except closing a connection that was found dead. With that, the code violates the property: the thread that closes connections holds the list and waits for the connection, the one that handles a message of it holds the connection and waits for the list; proved also that then every thread that needs the list hangs."
  },
  {
   "property": "C14",
   "status": "partial",
   "theorems": [
    "Verif.Props.hex_encoding",
    "Verif.Props.hex_roundtrip",
    "Verif.Props.hex_valid_iff",
    "Verif.Props.hex_valid_decodes_partial",
    "Verif.Props.hex_valid_odd_violated",
    "Verif.Props.hex_valid_odd_throws",
    "Verif.Props.hex_decode_sound"
   ],
   "note": "Strings of odd length pass IsValidHex but FromHex throws (hex_valid_odd_violated)."
  },
  {
   "property": "C140",
   "status": "partial",
   "theorems": [
    "Verif.Props.positions_saved",
    "Verif.Props.snapshot_taken_over_partial",
    "Verif.Props.spent_output_kept_violated",
    "Verif.Props.spent_output_kept_case_violated",
    "Verif.Props.other_output_spent_violated"
   ],
   "note": "Proved for every database: each unspent output of the snapshot gets its place and the height of its block, and other entries stay; so with an empty table the state is one to which all theorems of C36, C82 apply. With entries from before the snapshot the code violates the property (they are never removed): proved for every state and every block missed, and cases. Assumed: no two unspent outputs of the snapshot share a commitment."
  },
  {
   "property": "C141",
   "status": "partial",
   "theorems": [
    "Verif.Props.view_right",
    "Verif.Props.block_view_total",
    "Verif.Props.block_received_partial",
    "Verif.Props.orphan_features_violated",
    "Verif.Props.closed_crash_violated"
   ],
   "note": "Proved with the chain state open: the lookup never fails and gives the features of the unspent output, and a block whose inputs are unspent here is read as sent. The code violates the rest: a block that arrives before its parent and spends a coinbase of it gets plain inputs and is then stored and sent on changed; and while a snapshot is taken over, any block with a known input makes the node dereference a null pointer."
  },
  {
   "property": "C142",
   "status": "partial",
   "theorems": [
    "Verif.Props.ordered_finishes",
    "Verif.Props.threads_end_first",
    "Verif.Props.node_stops_partial",
    "Verif.Props.stop_hangs_violated"
   ],
   "note": "Proved: all threads have ended before connections are closed, always; and the node can always go on until it has stopped, unless it is just about to accept a connection or a connection is being closed because it was found dead (C139). The code violates the rest: the destructor of the seeder waits, holding the mutex that the handler for new connections takes first, for the thread that runs the handler. Detached threads that set up a connection are not joined and not modelled; nor are the wallet and the HTTP servers."
  },
  {
   "property": "C143",
   "status": "partial",
   "theorems": [
    "Verif.Props.waiting_until_settled_partial",
    "Verif.Props.unused_block_keeps_pool",
    "Verif.Props.refused_block_keeps_pool",
    "Verif.Props.chain_ignores_pool",
    "Verif.Props.losing_fork_drops_violated",
    "Verif.Props.failing_fork_drops_violated",
    "Verif.Props.undone_not_returned_violated",
    "Verif.Props.losing_fork_case_violated",
    "Verif.Props.failing_fork_case_violated",
    "Verif.Props.undone_case_violated"
   ],
   "note": "Proved: through any sequence of next blocks, submissions and relays a transaction leaves the public pool only for the reasons named, and the chain grows by exactly these blocks; blocks that are known, kept for later or refused as next block leave the pool as it is; the chain does not depend on the pool while the pool raises no error. The code violates the rest: the pool is changed while a branch is tried and is not changed back when the branch is dropped, and the transactions of undone blocks are not put back. Hashes of transactions are taken as different; expiry from the stem pool is C41."
  },
  {
   "property": "C144",
   "status": "partial",
   "theorems": [
    "Verif.Props.served_apart_partial",
    "Verif.Props.same_header_cut_violated",
    "Verif.Props.same_header_lost_violated",
    "Verif.Props.same_header_zero_violated",
    "Verif.Props.refused_request_silences_violated"
   ],
   "note": "Proved, for every order of the threads: requests for different headers do not disturb each other, each peer is told the right size, gets the whole blocks of its archive and is answered again. The code violates the rest: threads for the same header share one file name, and a request that fails leaves the connection mute. The bytes after the last whole block are C93, what is in the archive C134. Not modelled: failures of the socket, stopping the node meanwhile, an archive seen half written (it is empty, then complete), file systems on which an open file cannot be removed."
  },
  {
   "property": "C145",
   "status": "partial",
   "theorems": [
    "Verif.Props.state_bans_partial",
    "Verif.Props.state_asked_when",
    "Verif.Props.failed_attempt_next_asked",
    "Verif.Props.silent_peer_replaced_partial",
    "Verif.Props.helpful_peer_banned_violated",
    "Verif.Props.second_silent_peer_waited_for_violated",
    "Verif.Props.no_peer_then_waits_violated"
   ],
   "note": "Proved: in every run only peers that were asked, or whose archive failed, are banned, and the peer waited for is the one asked last; exactly when a peer is banned and the next asked; after a failed attempt the next peer is asked, and so is one after ten seconds of silence as long as no bytes have come in the run. The code violates the rest: a peer that delivered is banned at the next sync of the same process, and the count of bytes of a broken attempt is taken for the next peer's, so that this peer is waited for two hours. Which peer has most work and the header asked for (C61) are parameters; the events of a run come in any order, including orders the network does not produce."
  },
  {
   "property": "C15",
   "status": "partial",
   "theorems": [
    "Verif.Props.output_record_format",
    "Verif.Props.output_record_read_back",
    "Verif.Props.output_record_roundtrip_partial",
    "Verif.Props.output_record_hardened_violated",
    "Verif.Props.output_record_lossy_violated",
    "Verif.Props.slate_context_roundtrip_partial",
    "Verif.Props.slate_context_violated"
   ],
   "note": "What is read back is characterised exactly; false for hardened paths, present zeros, several labels, and contexts whose records lack a transaction id."
  },
  {
   "property": "C16",
   "status": "proved",
   "theorems": [
    "Verif.Props.height_correct",
    "Verif.Props.node_height_unique",
    "Verif.Props.leaf_iff_no_children",
    "Verif.Props.family_correct",
    "Verif.Props.parent_sibling_correct",
    "Verif.Props.index_no_wrap"
   ],
   "note": ""
  },
  {
   "property": "C17",
   "status": "proved",
   "theorems": [
    "Verif.Props.leafPos_iff_leaf",
    "Verif.Props.leafPos_increasing",
    "Verif.Props.leafPos_counts",
    "Verif.Props.leafIndex_roundtrip",
    "Verif.Props.leafIndex_roundtrip'"
   ],
   "note": ""
  },
  {
   "property": "C18",
   "status": "proved",
   "theorems": [
    "Verif.Props.peaks_tile",
    "Verif.Props.peaks_invalid"
   ],
   "note": ""
  },
  {
   "property": "C19",
   "status": "proved",
   "theorems": [
    "Verif.Props.append_stores_hashes",
    "Verif.Props.append_is_extension",
    "Verif.Props.kernel_data"
   ],
   "note": "Hash function is a parameter."
  },
  {
   "property": "C20",
   "status": "proved",
   "theorems": [
    "Verif.Props.root_correct",
    "Verif.Props.root_commits",
    "Verif.Props.root_historical"
   ],
   "note": "root_commits assumes collision freeness only on the strings hashed by the two lists."
  },
  {
   "property": "C21",
   "status": "proved",
   "theorems": [
    "Verif.Props.kernel_rewind",
    "Verif.Props.header_rewind",
    "Verif.Props.kernel_rewind_forward_refused"
   ],
   "note": ""
  },
  {
   "property": "C22",
   "status": "proved",
   "theorems": [
    "Verif.Props.prune_history",
    "Verif.Props.prune_shift",
    "Verif.Props.pruned_append",
    "Verif.Props.pruned_remove",
    "Verif.Props.pruned_rewind",
    "Verif.Props.pruned_root",
    "Verif.Props.pruned_get",
    "Verif.Props.stores_compacted"
   ],
   "note": "prune_history/prune_shift range over all histories of Add and Flush on leaves; the pruned_* theorems show that a range with compacted files behaves as the full one under append, remove, rewind, root and reads."
  },
  {
   "property": "C23",
   "status": "partial",
   "theorems": [
    "Verif.Props.append_only_refines_partial",
    "Verif.Props.straddling_read_violated",
    "Verif.Props.data_file_refines"
   ],
   "note": "Full refinement for record files (DataFile, the only use the code makes of reads): data_file_refines over all histories. For the byte-level AppendOnlyFile, reads that straddle disk and buffer are wrong (straddling_read_violated); all other reads proved."
  },
  {
   "property": "C24",
   "status": "partial",
   "theorems": [
    "Verif.Props.bitmap_refines_partial",
    "Verif.Props.bitmap_export",
    "Verif.Props.bitmap_index_violated",
    "Verif.Props.bitmap_index_always_false"
   ],
   "note": "IsSet, durability, rollback, rewind proved over all histories; operator[] is always false (bitmap_index_violated)."
  },
  {
   "property": "C25",
   "status": "partial",
   "theorems": [
    "Verif.Props.data_crash_partial",
    "Verif.Props.append_crash_keeps",
    "Verif.Props.data_crash_violated",
    "Verif.Props.record_crash_violated",
    "Verif.Props.flush_effects_complete",
    "Verif.Props.bitmap_crash_partial",
    "Verif.Props.bitmap_crash_violated",
    "Verif.Props.safe_write_crash_partial",
    "Verif.Props.safe_write_crash_violated",
    "Verif.Props.state_crash_order_partial",
    "Verif.Props.state_crash_violated"
   ],
   "note": "The claim as stated is false at every level (four witnesses); what holds at every crash point is proved beside each."
  },
  {
   "property": "C26",
   "status": "partial",
   "theorems": [
    "Verif.Props.batch_session_correct",
    "Verif.Props.batch_dropped",
    "Verif.Props.batch_committed",
    "Verif.Props.write_session_persists",
    "Verif.Props.composite_session_correct",
    "Verif.Props.wallet_session_partial",
    "Verif.Props.wallet_batch_violated",
    "Verif.Props.txhashset_replacement_violated"
   ],
   "note": "Proved for all batchable classes and the composite chain state, for arbitrary call sequences; false for changes made through a wallet batch after its commit, and for replacing the output set inside a batch."
  },
  {
   "property": "C27",
   "status": "partial",
   "theorems": [
    "Verif.Props.dma_minimum",
    "Verif.Props.dma_difficulty_partial",
    "Verif.Props.dma_step_partial",
    "Verif.Props.wtema_difficulty_partial",
    "Verif.Props.wtema_step_partial",
    "Verif.Props.wtema_collapse_violated",
    "Verif.Props.wtema_overflow_violated",
    "Verif.Props.dma_scaling_violated"
   ],
   "note": "Bounds and exact values while the 64-bit products do not wrap; false otherwise, and false when a parent is dated far ahead."
  },
  {
   "property": "C28",
   "status": "proved",
   "theorems": [
    "Verif.Props.header_version_spec",
    "Verif.Props.header_version_mono",
    "Verif.Props.header_version_unique"
   ],
   "note": "All three environments."
  },
  {
   "property": "C29",
   "status": "proved",
   "theorems": [
    "Verif.Props.maturity_rule",
    "Verif.Props.apply_accepts_iff",
    "Verif.Props.pool_check_iff",
    "Verif.Props.wallet_mature",
    "Verif.Props.wallet_mature_iff"
   ],
   "note": "Blocks, the pool's check and the wallet's selection rule."
  },
  {
   "property": "C30",
   "status": "proved",
   "theorems": [
    "Verif.Props.block_weight",
    "Verif.Props.current_weight_rule",
    "Verif.Props.transaction_weight",
    "Verif.Props.old_weight_rule"
   ],
   "note": "For every body that fits in memory (counts below 2^60)."
  },
  {
   "property": "C31",
   "status": "proved",
   "theorems": [
    "Verif.Props.cuckatoo_accepts_iff",
    "Verif.Props.cuckaroo_accepts_iff",
    "Verif.Props.cuckarooz_accepts_iff",
    "Verif.Props.cuckaroom_accepts_iff",
    "Verif.Props.cuckarood_accepts_iff"
   ],
   "note": "All five verifiers; the function from an edge index to its two end points is a parameter here; C112 gives it (SipHash)."
  },
  {
   "property": "C32",
   "status": "partial",
   "theorems": [
    "Verif.Props.header_accepts_iff",
    "Verif.Props.maximum_difficulty_spec",
    "Verif.Props.header_time_partial",
    "Verif.Props.future_header_violated",
    "Verif.Props.header_sizes_violated"
   ],
   "note": "Acceptance characterised exactly; the limit on future times is compared with clock ticks instead of seconds, and the MMR sizes are not compared with the parent's."
  },
  {
   "property": "C33",
   "status": "partial",
   "theorems": [
    "Verif.Props.body_accepts_iff",
    "Verif.Props.body_sorted_partial",
    "Verif.Props.duplicate_kernel_violated",
    "Verif.Props.double_spend_violated",
    "Verif.Props.duplicate_output_commitment_violated"
   ],
   "note": "Acceptance characterised exactly. The order check allows equal neighbours, so duplicate kernels, repeated inputs and repeated output commitments pass."
  },
  {
   "property": "C34",
   "status": "partial",
   "theorems": [
    "Verif.Props.cut_through_balance",
    "Verif.Props.cut_through_disjoint",
    "Verif.Props.aggregate_partial",
    "Verif.Props.aggregate_balance_violated"
   ],
   "note": "Proved when no commitment occurs twice among the inputs or twice among the outputs; false otherwise."
  },
  {
   "property": "C35",
   "status": "proved",
   "theorems": [
    "Verif.Props.kernel_sums_sound",
    "Verif.Props.transaction_balances",
    "Verif.Props.coinbase_balances",
    "Verif.Props.supply_apply",
    "Verif.Props.money_supply",
    "Verif.Props.rewound_books",
    "Verif.Props.genesis_books",
    "Verif.Props.snapshot_supply"
   ],
   "note": "Any commutative group; serialization of points is a parameter with the law parse (ser g) = g. Range proofs and signatures are not part of it."
  },
  {
   "property": "C36",
   "status": "partial",
   "theorems": [
    "Verif.Props.apply_accepts_iff",
    "Verif.Props.apply_answers",
    "Verif.Props.apply_effect",
    "Verif.Props.coin_sound",
    "Verif.Props.rewind_restores",
    "Verif.Props.reachable_holds",
    "Verif.Props.roots_check",
    "Verif.Props.pool_check_mineable",
    "Verif.Props.duplicate_input_violated",
    "Verif.Props.unlisted_outputs_violated"
   ],
   "note": "Apply and rewind proved for all states and all lists of blocks; false for a block naming one output twice in a row (null dereference), and the sizes in the header are not compared with those reached, so outputs can be added that no root covers."
  },
  {
   "property": "C37",
   "status": "proved",
   "theorems": [
    "Verif.Props.chain_store_refines",
    "Verif.Props.last_agree_spec",
    "Verif.Props.linked_agree_iff",
    "Verif.Props.reorg_copies"
   ],
   "note": "Any sequence of operations incl. commit, rollback and restart from the files; tips below 2^64."
  },
  {
   "property": "C38",
   "status": "partial",
   "theorems": [
    "Verif.Props.work_monotone_partial",
    "Verif.Props.heavier_branch_adopted",
    "Verif.Props.next_block_adopted",
    "Verif.Props.fake_work_violated",
    "Verif.Props.fake_work_case_violated",
    "Verif.Props.unlinked_batch_violated",
    "Verif.Props.waiting_block_violated",
    "Verif.Props.deep_block_refused"
   ],
   "note": "Proved for unique header hashes and linked header batches. False otherwise: the hash covers only the proof of work, batches are not checked for links; and a waiting block with more work is forgotten when its parent arrives on a branch without more work."
  },
  {
   "property": "C39",
   "status": "partial",
   "theorems": [
    "Verif.Props.hydrate_sound",
    "Verif.Props.hydrate_some_iff",
    "Verif.Props.hydrate_original",
    "Verif.Props.overlapping_pool_violated",
    "Verif.Props.short_id"
   ],
   "note": "Soundness for every compact block and pool; the original block comes back when the pool holds its transactions and no other pool transaction matches an id. Matching kernels are counted rather than matched ids, so overlapping pool transactions yield a different block instead of nothing."
  },
  {
   "property": "C40",
   "status": "partial",
   "theorems": [
    "Verif.Props.selection_joint",
    "Verif.Props.reconciled_joint_partial",
    "Verif.Props.stem_offer",
    "Verif.Props.fluff_offer",
    "Verif.Props.joint_mineable",
    "Verif.Props.conflict_admitted_violated",
    "Verif.Props.conflict_stops_relay_violated"
   ],
   "note": "Holds after each block; a submission is only checked by itself, so conflicting transactions coexist until the next block and stop all stem and fluff runs."
  },
  {
   "property": "C41",
   "status": "partial",
   "theorems": [
    "Verif.Props.expired_iff_partial",
    "Verif.Props.stored_time",
    "Verif.Props.stem_expired_at_once_violated",
    "Verif.Props.new_stem_expired_violated"
   ],
   "note": "The stored time is always 0, so every stem transaction is reported expired at once."
  },
  {
   "property": "C42",
   "status": "partial",
   "theorems": [
    "Verif.Props.selection_sound_partial",
    "Verif.Props.fewest_optimal",
    "Verif.Props.smallest_prefix",
    "Verif.Props.custom_exact",
    "Verif.Props.smallest_misses",
    "Verif.Props.all_unchecked_violated",
    "Verif.Props.all_free_violated"
   ],
   "note": "Sound for three strategies, and exact for 'fewest' and 'custom'; 'smallest' may fail where a selection exists; 'all' never looks at what the coins are worth."
  },
  {
   "property": "C43",
   "status": "partial",
   "theorems": [
    "Verif.Props.send_balances_partial",
    "Verif.Props.change_split",
    "Verif.Props.send_entire_partial",
    "Verif.Props.send_all_violated",
    "Verif.Props.send_entire_violated",
    "Verif.Props.send_255_violated"
   ],
   "note": "Holds for the selecting strategies and fewer than 255 change outputs; wraps for strategy 'all', for an entire balance below the fee, and for 255 change outputs."
  },
  {
   "property": "C44",
   "status": "partial",
   "theorems": [
    "Verif.Props.balance_partition",
    "Verif.Props.spendable_is_available",
    "Verif.Props.available_mature",
    "Verif.Props.refresh_matches_chain",
    "Verif.Props.behind_node_violated",
    "Verif.Props.stale_height_violated"
   ],
   "note": "The classification is exact for every stored list and agrees with the node's chain after a refresh; an output moved to a later block keeps its first height, and a node that is behind yields an empty summary."
  },
  {
   "property": "C45",
   "status": "partial",
   "theorems": [
    "Verif.Props.send_effect",
    "Verif.Props.send_moves_balance",
    "Verif.Props.cancel_effect",
    "Verif.Props.cancel_refused",
    "Verif.Props.send_cancel_restores",
    "Verif.Props.sent_without_change_violated",
    "Verif.Props.cancel_after_payment_violated",
    "Verif.Props.cancel_releases_other_violated"
   ],
   "note": "Effects of send and cancel on every output and record, and the round trip; but a send without change is never seen as confirmed and can be canceled afterwards, and finalizing a canceled send lets its cancel release another send's coin."
  },
  {
   "property": "C46",
   "status": "partial",
   "theorems": [
    "Verif.Props.receive_once_partial",
    "Verif.Props.receive_own_slate_violated",
    "Verif.Props.receive_after_cancel_violated"
   ],
   "note": "By induction over histories without cancels and own sends of the slate; both exceptions are real."
  },
  {
   "property": "C47",
   "status": "proved",
   "theorems": [
    "Verif.Props.partial_verifies",
    "Verif.Props.aggregate_valid",
    "Verif.Props.exchange_completes",
    "Verif.Props.finalize_sound",
    "Verif.Props.finalized_balances"
   ],
   "note": "Any field, any module, any challenge function; any number of participants for the aggregate. Sums that cancel, of negligible probability for random keys, are excluded by explicit hypotheses."
  },
  {
   "property": "C48",
   "status": "partial",
   "theorems": [
    "Verif.Props.session_iff",
    "Verif.Props.opens_iff",
    "Verif.Props.issued_opens",
    "Verif.Props.dead_refused",
    "Verif.Props.forged_key_partial",
    "Verif.Props.deletable_iff_partial",
    "Verif.Props.short_key_violated",
    "Verif.Props.forged_key_violated",
    "Verif.Props.longer_key_violated",
    "Verif.Props.logout_forged_violated",
    "Verif.Props.stale_listener_violated",
    "Verif.Props.failed_login_violated"
   ],
   "note": "The lifetime of sessions holds for all histories. A forged key is refused only by a four-byte checksum, a short key is undefined behaviour, trailing bytes are ignored, logging out ignores the key."
  },
  {
   "property": "C49",
   "status": "partial",
   "theorems": [
    "Verif.Props.paths_distinct_partial",
    "Verif.Props.transactions_kept_partial",
    "Verif.Props.restored_path_violated",
    "Verif.Props.tx_id_wrap_violated"
   ],
   "note": "For all histories, failing operations included, up to 2^32 allocations; restored outputs do not advance the counter of key paths."
  },
  {
   "property": "C50",
   "status": "proved",
   "theorems": [
    "Verif.Props.locator_heights"
   ],
   "note": "All heights. Also bounds how far back the search for the last common header goes."
  },
  {
   "property": "C51",
   "status": "partial",
   "theorems": [
    "Verif.Props.served_headers_partial",
    "Verif.Props.served_fork_violated",
    "Verif.Props.candidateHeader_iff"
   ],
   "note": "Holds when the first known locator hash is on the candidate chain. The code answers from any stored header, and then the headers do not connect."
  },
  {
   "property": "C52",
   "status": "partial",
   "theorems": [
    "Verif.Props.prune_partial",
    "Verif.Props.prune_passes_partial",
    "Verif.Props.prune_neighbour_violated",
    "Verif.Props.prune_shutdown_violated"
   ],
   "note": "A pass keeps every active connection and removes at least half of each run of inactive ones; n passes remove all of fewer than 2^n. The one after a removed one is skipped; a shutdown closes every other connection only."
  },
  {
   "property": "C53",
   "status": "partial",
   "theorems": [
    "Verif.Props.peers_found",
    "Verif.Props.peers_found_partial",
    "Verif.Props.new_peer_partial",
    "Verif.Props.banned_hides_violated",
    "Verif.Props.peers_shared"
   ],
   "note": "Exact result for every table without a banned peer in the way; a banned peer ends the search."
  },
  {
   "property": "C54",
   "status": "proved",
   "theorems": [
    "Verif.Props.most_work"
   ],
   "note": "All connection lists and all random choices."
  },
  {
   "property": "C55",
   "status": "proved",
   "theorems": [
    "Verif.Props.rate_exact",
    "Verif.Props.rate_clock_violated"
   ],
   "note": "For every sequence with a nondecreasing clock, as the property says; `rate_clock_violated` shows the need for that."
  },
  {
   "property": "C56",
   "status": "partial",
   "theorems": [
    "Verif.Props.listening_partial",
    "Verif.Props.deaf_violated",
    "Verif.Props.stopped_violated",
    "Verif.Props.hang_up_violated",
    "Verif.Props.opened_welcome"
   ],
   "note": "Holds for arrivals that are accepted, refused for being full, or banned. An error or a blocked or not allowed address ends listening; a peer that hangs up early ends the program."
  },
  {
   "property": "C57",
   "status": "proved",
   "theorems": [
    "Verif.Props.queue_fifo",
    "Verif.Props.queue_unique",
    "Verif.Props.pipe_moves",
    "Verif.Props.pipe_round",
    "Verif.Props.pipe_bans"
   ],
   "note": "All sequences of calls; the element behind a failing one is reached."
  },
  {
   "property": "C58",
   "status": "proved",
   "theorems": [
    "Verif.Props.header_read",
    "Verif.Props.late_add_violated"
   ],
   "note": "All histories in which headers are added to a batch before it ends. `late_add_violated` shows that this condition, which the callers meet, is needed."
  },
  {
   "property": "C59",
   "status": "proved",
   "theorems": [
    "Verif.Props.lru_cache",
    "Verif.Props.fifo_cache",
    "Verif.Props.lru_evicts"
   ],
   "note": "All histories and capacities; also for the first-in first-out policy of the same library."
  },
  {
   "property": "C60",
   "status": "partial",
   "theorems": [
    "Verif.Props.proofs_accepted_partial",
    "Verif.Props.proofs_verified_partial",
    "Verif.Props.other_proof_violated",
    "Verif.Props.no_proofs_violated",
    "Verif.Props.short_proof_violated"
   ],
   "note": "Each accepted commitment had a valid proof in this or an earlier call. It need not be the proof accepted now; without any proof, or with a proof shorter than the first, memory is read outside its bounds."
  },
  {
   "property": "C61",
   "status": "partial",
   "theorems": [
    "Verif.Props.state_sync_partial",
    "Verif.Props.short_chain_violated",
    "Verif.Props.failed_sync_violated",
    "Verif.Props.state_sync_again"
   ],
   "note": "Exact for chains of 10080 headers or more. On shorter chains the subtraction wraps and the node never syncs blocks."
  },
  {
   "property": "C62",
   "status": "partial",
   "theorems": [
    "Verif.Props.inbound_partial",
    "Verif.Props.outbound_partial",
    "Verif.Props.exchange_partial",
    "Verif.Props.exchange_version",
    "Verif.Props.other_genesis_violated",
    "Verif.Props.outbound_connected_violated"
   ],
   "note": "Exact success conditions of both sides. The genesis hash is not compared by either side."
  },
  {
   "property": "C63",
   "status": "proved",
   "theorems": [
    "Verif.Props.snapshot_validated",
    "Verif.Props.snapshot_kernel_hashes",
    "Verif.Props.snapshot_supply"
   ],
   "note": "All snapshots. `snapshot_kernel_hashes` says what the roots imply for the stored kernel hashes, `snapshot_supply` (C35) what the sums imply for the amount of money."
  },
  {
   "property": "C64",
   "status": "partial",
   "theorems": [
    "Verif.Props.orphan_pool",
    "Verif.Props.orphan_header",
    "Verif.Props.unbounded_orphans_violated",
    "Verif.Props.first_body_violated"
   ],
   "note": "Exact contents of the pool after every history, nothing is ever evicted; but there is no limit, and a second block with the same header is dropped."
  },
  {
   "property": "C65",
   "status": "proved",
   "theorems": [
    "Verif.Props.slate_commitments_distinct",
    "Verif.Props.slate_additions_kept"
   ],
   "note": ""
  },
  {
   "property": "C66",
   "status": "partial",
   "theorems": [
    "Verif.Props.slate_equality_partial",
    "Verif.Props.slate_equality_violated",
    "Verif.Props.slate_equality_irreflexive_violated"
   ],
   "note": "operator== neither compares the block version nor the feature arguments."
  },
  {
   "property": "C67",
   "status": "partial",
   "theorems": [
    "Verif.Props.message_handling_ends_partial",
    "Verif.Props.malformed_message_violated",
    "Verif.Props.empty_ping_violated"
   ],
   "note": "False for malformed messages: the connection's mutex is locked twice."
  },
  {
   "property": "C68",
   "status": "partial",
   "theorems": [
    "Verif.Props.startup_ends_partial",
    "Verif.Props.startup_violated"
   ],
   "note": "False when the flushed header is below the horizon: the mutex of the tx hash set is locked twice."
  },
  {
   "property": "C69",
   "status": "partial",
   "theorems": [
    "Verif.Props.pow_answers_partial",
    "Verif.Props.secondary_retired",
    "Verif.Props.small_graph_violated",
    "Verif.Props.small_graph_header_violated",
    "Verif.Props.edge_bits_violated"
   ],
   "note": "Below 24 edge bits the validator's shift is undefined behaviour; sizes 24 to 28 and 30 are accepted."
  },
  {
   "property": "C70",
   "status": "partial",
   "theorems": [
    "Verif.Props.cuckatoo_answers",
    "Verif.Props.cuckaroo_answers",
    "Verif.Props.cuckarooz_answers",
    "Verif.Props.cuckaroom_answers",
    "Verif.Props.cuckarood_hangs_violated"
   ],
   "note": "Four verifiers always answer; Cuckarood does not end when two edges join the same nodes in opposite directions and edge 0 leads into them."
  },
  {
   "property": "C71",
   "status": "partial",
   "theorems": [
    "Verif.Props.header_loop_violated"
   ],
   "note": "False: a header naming itself as parent, sent twice, makes the search for ancestors run forever with the chain locked."
  },
  {
   "property": "C72",
   "status": "partial",
   "theorems": [
    "Verif.Props.stored_header_partial",
    "Verif.Props.body_swap_violated",
    "Verif.Props.body_swap_case_violated"
   ],
   "note": "Proved for unique hashes; false because the hash of a header covers only its proof of work and known headers are not compared."
  },
  {
   "property": "C73",
   "status": "partial",
   "theorems": [
    "Verif.Props.candidate_chain_partial",
    "Verif.Props.candidate_unlinked_violated"
   ],
   "note": "Proved for unique hashes and linked batches; the links inside a batch are never checked."
  },
  {
   "property": "C74",
   "status": "proved",
   "theorems": [
    "Verif.Props.admitted_iff",
    "Verif.Props.admitted_no_coinbase",
    "Verif.Props.admitted_effect",
    "Verif.Props.validator_ok",
    "Verif.Props.admitted_pays"
   ],
   "note": "Decision logic of admission, and the fee bound under the node's rules from the last version change on."
  },
  {
   "property": "C75",
   "status": "partial",
   "theorems": [
    "Verif.Props.nonce_reused_violated",
    "Verif.Props.finalize_again_violated",
    "Verif.Props.contexts_kept",
    "Verif.Props.send_again_refused"
   ],
   "note": "Fails: finalizing does not consume the stored secrets, and is offered to the counterparty; two responses reveal the sender's key."
  },
  {
   "property": "C76",
   "status": "partial",
   "theorems": [
    "Verif.Props.format_reads_partial",
    "Verif.Props.format_injective",
    "Verif.Props.format_violated"
   ],
   "note": "Right exactly if the fraction is zero or has nine digits."
  },
  {
   "property": "C77",
   "status": "partial",
   "theorems": [
    "Verif.Props.snapshot_kernel_hashes",
    "Verif.Props.snapshot_data_violated",
    "Verif.Props.snapshot_swapped_violated",
    "Verif.Props.snapshot_extra_violated",
    "Verif.Props.snapshot_short_violated"
   ],
   "note": "Proved for the hashes of kernels only. The data files are never hashed, so other data with valid sums, proofs and signatures is accepted."
  },
  {
   "property": "C78",
   "status": "partial",
   "theorems": [
    "Verif.Props.header_sync_completes_partial",
    "Verif.Props.reachable_chain",
    "Verif.Props.header_sync_stuck_violated",
    "Verif.Props.header_sync_stuck_case_violated",
    "Verif.Props.header_ban_partial",
    "Verif.Props.header_ban_after_progress",
    "Verif.Props.header_ban_once_violated",
    "Verif.Props.header_ban_honest_violated"
   ],
   "note": "Proved when the first 128 headers above the fork already outweigh the own chain; otherwise the node never changes over. A banned peer was asked, but not always twice."
  },
  {
   "property": "C79",
   "status": "proved",
   "theorems": [
    "Verif.Props.blocks_needed",
    "Verif.Props.blocks_needed_prefix"
   ],
   "note": "All chains, limits and orphans."
  },
  {
   "property": "C80",
   "status": "partial",
   "theorems": [
    "Verif.Props.block_requests",
    "Verif.Props.block_missing_asked",
    "Verif.Props.block_quiet",
    "Verif.Props.block_forgotten",
    "Verif.Props.block_ban_partial",
    "Verif.Props.block_ban_again_violated",
    "Verif.Props.block_ban_disconnected_violated"
   ],
   "note": "The requests are proved for every call. The first ban follows a request of more than five seconds ago; later bans, and bans of peers that disconnected, need not."
  },
  {
   "property": "C81",
   "status": "partial",
   "theorems": [
    "Verif.Props.consistent_block",
    "Verif.Props.consistent_block_accepted",
    "Verif.Props.chain_rules",
    "Verif.Props.coinbase_features_violated"
   ],
   "note": "Weight, locks, cut-through and coinbase for all blocks and chains, in both directions. Kernels of undefined kinds pass as coinbase kernels."
  },
  {
   "property": "C82",
   "status": "proved",
   "theorems": [
    "Verif.Props.outputs_listed",
    "Verif.Props.reachable_indexed",
    "Verif.Props.listed_iff_coin"
   ],
   "note": "`outputs_listed` gives the answer in full for every correctly stored state; `reachable_indexed` shows that every chain of blocks leads to such a state; `listed_iff_coin` ties the list to lookups by commitment. Leaf numbers of 2^63 and more are not modelled."
  },
  {
   "property": "C83",
   "status": "partial",
   "theorems": [
    "Verif.Props.restore_finds_partial",
    "Verif.Props.restore_after_reorg_violated",
    "Verif.Props.restore_discards_violated",
    "Verif.Props.restore_after_reorg_case_violated",
    "Verif.Props.restore_last_spent_violated"
   ],
   "note": "`restore_finds_partial` settles the search while the chain stands still and the last output is unspent, for any number of batches. Violated after a reorganisation: outputs at leaf numbers up to the saved index are never looked at, and an empty later answer discards everything found. The rewinding of range proofs is a parameter."
  },
  {
   "property": "C84",
   "status": "partial",
   "theorems": [
    "Verif.Props.estimate_is_paid_partial",
    "Verif.Props.fee_without_change_violated",
    "Verif.Props.fee_without_change_case_violated",
    "Verif.Props.estimate_immature_violated",
    "Verif.Props.estimate_below_fee_violated"
   ],
   "note": "`estimate_is_paid_partial`: with at least one change output (as a byte) or the entire balance, and no coin waiting for confirmations, estimate and send agree on everything. Violated with an amount and no change output (all that exceeds the amount is paid as fee), for coins waiting for confirmations, and for balances below the fee. The refresh before a send is C44's; the two are compared on the same table of outputs."
  },
  {
   "property": "C85",
   "status": "partial",
   "theorems": [
    "Verif.Props.seed_opens_iff",
    "Verif.Props.seed_file_opens",
    "Verif.Props.other_password",
    "Verif.Props.password_changed",
    "Verif.Props.password_change_stop_partial",
    "Verif.Props.password_change_stop_violated",
    "Verif.Props.seed_file_safe",
    "Verif.Props.written_length",
    "Verif.Props.short_seed_file_violated",
    "Verif.Props.cbc_decrypts_iff"
   ],
   "note": "CBC with padding is proved to decrypt exactly what it encrypts, for every pair of inverse block functions; `seed_opens_iff` and `other_password` give the exact condition under which a password opens a file. Violated for files of fewer than 48 encrypted bytes (undefined behaviour) and for a stop between removing the old seed file and renaming the new one. AES, scrypt and HMAC are parameters; JSON text and lengths beyond `int` are not modelled."
  },
  {
   "property": "C86",
   "status": "partial",
   "theorems": [
    "Verif.Props.record_roundtrip",
    "Verif.Props.record_decrypts_iff",
    "Verif.Props.altered_record_violated"
   ],
   "note": "`record_roundtrip` and `record_decrypts_iff` hold for every block cipher. There is no authentication: `altered_record_violated` shows that for every record and every difference in its first 16 bytes there is an alteration of the stored initial vector that is read as the changed record."
  },
  {
   "property": "C87",
   "status": "partial",
   "theorems": [
    "Verif.Props.slate_json_roundtrip_iff_partial",
    "Verif.Props.slate_json_outcome",
    "Verif.Props.slate_from_json_no_ub",
    "Verif.Props.slate_json_violated_lock_height",
    "Verif.Props.slate_json_violated_fee",
    "Verif.Props.uuid_text_roundtrip"
   ],
   "note": "The exact condition for the round trip is proved, over jsoncpp values. Violated: `feat_args` is never read, so a lock height is lost and the slate read cannot be written again; a fee with a shift is read as a bare number. The text of JSON (jsoncpp) is not modelled."
  },
  {
   "property": "C88",
   "status": "partial",
   "theorems": [
    "Verif.Props.tx_json_roundtrip_iff_partial",
    "Verif.Props.kernel_json_outcome",
    "Verif.Props.tx_from_json_no_ub_partial",
    "Verif.Props.tx_json_violated_fee",
    "Verif.Props.kernel_json_violated_nrd",
    "Verif.Props.tx_json_violated_empty",
    "Verif.Props.kernel_from_json_violated_ub"
   ],
   "note": "The exact condition for the round trip is proved. Violated for fees with a shift, for coinbase kernels and kernels that must not be repeated, for empty lists, and (undefined behaviour) for kernels with empty features or with signatures that do not parse. The conversion of signatures (secp256k1) is a parameter."
  },
  {
   "property": "C89",
   "status": "partial",
   "theorems": [
    "Verif.Props.json_number_read",
    "Verif.Props.json_number_refused",
    "Verif.Props.json_number_violated"
   ],
   "note": "Violated: a negative number in quotes is read modulo 2^64, characters after the digits are ignored, and eight-bit fields keep the low byte of larger numbers."
  },
  {
   "property": "C90",
   "status": "proved",
   "theorems": [
    "Verif.PoW.U128.u128_add",
    "Verif.PoW.U128.u128_sub",
    "Verif.PoW.U128.u128_neg",
    "Verif.PoW.U128.u128_order",
    "Verif.PoW.U128.u128_shl",
    "Verif.PoW.U128.u128_shr",
    "Verif.PoW.U128.u128_mul",
    "Verif.PoW.U128.u128_bits",
    "Verif.PoW.U128.u128_divmod",
    "Verif.PoW.U128.u128_div_mod",
    "Verif.PoW.U128.u128_text",
    "Verif.PoW.U128.u128_max_difficulty",
    "Verif.PoW.U128.u128_max_difficulty_header"
   ],
   "note": "The templates for signed operands (which would not extend the sign) are not modelled; no caller uses them."
  },
  {
   "property": "C91",
   "status": "proved",
   "theorems": [
    "Verif.Props.base64_roundtrip",
    "Verif.Props.base64_text",
    "Verif.Props.base64_refuses",
    "Verif.Props.session_token_roundtrip",
    "Verif.Props.session_token_injective",
    "Verif.Props.session_token_text_not_unique"
   ],
   "note": "The converse is not claimed: text after a NUL and the spare bits of the last character are ignored, so two texts can name one token (`session_token_text_not_unique`)."
  },
  {
   "property": "C92",
   "status": "partial",
   "theorems": [
    "Verif.Props.age_stream_encrypt",
    "Verif.Props.age_stream_authentic",
    "Verif.Props.age_stream_roundtrip",
    "Verif.Props.age_roundtrip_partial",
    "Verif.Props.age_works",
    "Verif.Props.slatepack_age_roundtrip_partial",
    "Verif.Props.age_decrypt_authentic",
    "Verif.Props.age_decrypt_other",
    "Verif.Props.age_decrypt_defined_partial",
    "Verif.Props.age_decrypt_defined_violated",
    "Verif.Props.age_header_unchecked_violated",
    "Verif.Props.age_empty_violated"
   ],
   "note": "The ChaCha20 key stream, Poly1305, X25519, HKDF and HMAC are parameters; that boxes for other recipients do not open is the hypothesis `BoxesSeparate`. Violated: the header's code is never checked, the empty text cannot be decrypted, and a last chunk shorter than a tag leaves the buffer."
  },
  {
   "property": "C93",
   "status": "partial",
   "theorems": [
    "Verif.Props.archive_received_exact",
    "Verif.Props.archive_received_partial",
    "Verif.Props.archive_large_violated",
    "Verif.Props.archive_never_ends_violated",
    "Verif.Props.snapshot_sent",
    "Verif.Props.snapshot_transfer_partial",
    "Verif.Props.snapshot_transfer_violated",
    "Verif.Props.archive_one_at_a_time"
   ],
   "note": "Violated: a served file whose size is not a multiple of 131072 is cut off, a size of 2^31 bytes or more cannot be downloaded, and a size that is a multiple of 2^32 never ends. Shutting down and errors of the disk are not modelled."
  },
  {
   "property": "C94",
   "status": "partial",
   "theorems": [
    "Verif.Props.archive_confined",
    "Verif.Props.archive_extracted",
    "Verif.Props.archive_content",
    "Verif.Props.snapshot_accepted_partial",
    "Verif.Props.snapshot_refused_partial",
    "Verif.Props.snapshot_refused_violated",
    "Verif.Props.snapshot_wipes_violated",
    "Verif.Props.snapshot_unsolicited_violated",
    "Verif.Props.snapshot_below_violated",
    "Verif.Props.snapshot_defined_partial",
    "Verif.Props.snapshot_defined_violated"
   ],
   "note": "Whether the unpacked files validate is a parameter (C63, C77); the library that reads archives and errors of the file system are not modelled. Violated: a refused snapshot leaves the chain state closed and may remove its files, nobody needs to have asked for it, and a header below the confirmed blocks or above the candidate chain is mishandled."
  },
  {
   "property": "C95",
   "status": "partial",
   "theorems": [
    "Verif.Props.segment_message_roundtrip",
    "Verif.Props.segment_bytes_kept",
    "Verif.Props.segment_memory_violated",
    "Verif.Props.segment_positions_violated"
   ],
   "note": "Violated: the vector of positions is constructed with the count named in the message before anything is checked; a list of 65536 or more positions of a bitmap block loses its count."
  },
  {
   "property": "C96",
   "status": "partial",
   "theorems": [
    "Verif.Props.master_key_standard",
    "Verif.Props.child_key_standard_partial",
    "Verif.Props.derived_key_valid",
    "Verif.Props.derive_hierarchical",
    "Verif.Props.child_data_injective",
    "Verif.Props.sibling_keys_differ"
   ],
   "note": "Where the left half of the HMAC is zero or at least the group order, which BIP32 treats specially, the code leaves the decision to the library's addition of secrets (chance below 2^-127). HMAC, point multiplication and addition of secrets are parameters."
  },
  {
   "property": "C97",
   "status": "partial",
   "theorems": [
    "Verif.Props.own_output_found",
    "Verif.Props.view_by_public_key",
    "Verif.Props.old_output_found",
    "Verif.Props.foreign_output_ignored",
    "Verif.Props.restore_from_seed_partial",
    "Verif.Props.empty_path_violated"
   ],
   "note": "The range proof library is a parameter with the laws `KeyLaws`. Partial as C83 is: the chain must stand still during the search. Violated for a block reward with a key identifier without indices."
  },
  {
   "property": "C98",
   "status": "partial",
   "theorems": [
    "Verif.Props.stem_one_relay",
    "Verif.Props.relay_kept",
    "Verif.Props.broadcast_in_pool",
    "Verif.Props.embargo_partial",
    "Verif.Props.stem_not_private_violated",
    "Verif.Props.failed_aggregate_stops_embargo_violated",
    "Verif.Props.failed_stem_violated"
   ],
   "note": "Violated: every stem transaction is broadcast in the round in which it is stemmed (the stored time is zero, C41); a failing aggregation ends the round before expired transactions are looked at; after a failed stem the public pool gets the aggregate and its parts."
  },
  {
   "property": "C99",
   "status": "partial",
   "theorems": [
    "Verif.Props.any_order_converges",
    "Verif.Props.rounds_converge",
    "Verif.Props.wrong_peer_banned_violated"
   ],
   "note": "Convergence is proved for all schedules. Partial because of bans: a peer whose good block connects through a bad waiting block is banned in place of the sender of the bad one."
  }
 ]
}