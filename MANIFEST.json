{
 "claims": [
  {
   "property": "C01",
   "status": "proved",
   "theorems": [
    "Noise.C01_id_roundtrip"
   ],
   "note": ""
  },
  {
   "property": "C02",
   "status": "partial",
   "theorems": [
    "Noise.C02_ipv4_refuted",
    "Noise.C02_ipv4_partial"
   ],
   "note": "False of the code: Marshal copies a 4-byte host into the first 4 bytes of the 16-byte field. Refuted for every 4-byte host except 0.0.0.0; proved for IPv4 hosts in 16-byte form."
  },
  {
   "property": "C03",
   "status": "proved",
   "theorems": [
    "Noise.C03_unmarshalID_exact"
   ],
   "note": ""
  },
  {
   "property": "C04",
   "status": "proved",
   "theorems": [
    "Noise.C04_address_identifies_endpoint"
   ],
   "note": ""
  },
  {
   "property": "C05",
   "status": "proved",
   "theorems": [
    "Noise.C05_string_unambiguous"
   ],
   "note": ""
  },
  {
   "property": "C06",
   "status": "proved",
   "theorems": [
    "Noise.C06_load_keys"
   ],
   "note": ""
  },
  {
   "property": "C07",
   "status": "proved",
   "theorems": [
    "Noise.C07_unmarshal_signature"
   ],
   "note": ""
  },
  {
   "property": "C08",
   "status": "proved",
   "theorems": [
    "Noise.C08_envelope"
   ],
   "note": ""
  },
  {
   "property": "C09",
   "status": "proved",
   "theorems": [
    "Noise.C09_stream",
    "Noise.C09_stream_complete"
   ],
   "note": ""
  },
  {
   "property": "C10",
   "status": "proved",
   "theorems": [
    "Noise.C10_limit",
    "Noise.C10_session_limit"
   ],
   "note": ""
  },
  {
   "property": "C11",
   "status": "partial",
   "theorems": [
    "Noise.C11_zero_limit_refuted",
    "Noise.C11_zero_limit_partial"
   ],
   "note": "False of the code: with limit 0 every non-empty frame makes read panic (slice bounds), and limits above 2^32-5 panic on every read. Proved: behaviour on empty frames and that 2^32-5 admits everything up to that size."
  },
  {
   "property": "C12",
   "status": "proved",
   "theorems": [
    "Noise.C12_encrypt_decrypt",
    "Noise.C12_send_preserves_user_data"
   ],
   "note": ""
  },
  {
   "property": "C13",
   "status": "proved",
   "theorems": [
    "Noise.C13_only_sealed"
   ],
   "note": ""
  },
  {
   "property": "C14",
   "status": "partial",
   "theorems": [
    "Noise.C14_replay_refuted",
    "Noise.C14_replay_applies",
    "Noise.C14_replay_partial"
   ],
   "note": "False of the code: a repeated frame is delivered again. Proved: only sealed messages are delivered."
  },
  {
   "property": "C15",
   "status": "partial",
   "theorems": [
    "Noise.C15_nonce_reuse_refuted",
    "Noise.C15_nonce_reuse_partial"
   ],
   "note": "False of the code: nonces come from the default-seeded math/rand, so two processes draw equal sequences. Proved: no reuse inside one process as long as the generator has not repeated."
  },
  {
   "property": "C16",
   "status": "proved",
   "theorems": [
    "Noise.C16_opcodes"
   ],
   "note": ""
  },
  {
   "property": "C17",
   "status": "proved",
   "theorems": [
    "Noise.C17_encode_decode"
   ],
   "note": ""
  },
  {
   "property": "C18",
   "status": "proved",
   "theorems": [
    "Noise.C18_clean_failures"
   ],
   "note": ""
  },
  {
   "property": "C19",
   "status": "partial",
   "theorems": [
    "Noise.C19_overflow_refuted",
    "Noise.C19_overflow_witness",
    "Noise.C19_overflow_partial"
   ],
   "note": "False of the code: the 65537th registration silently takes over opcode 0. Proved: the last 65536 types keep working."
  },
  {
   "property": "C20",
   "status": "partial",
   "theorems": [
    "Noise.C20_pointer_refuted",
    "Noise.C20_pointer_witness",
    "Noise.C20_pointer_partial"
   ],
   "note": "False of the code for types registered as pointers. Proved: pointers encode like values, and every registered value type can be encoded."
  },
  {
   "property": "C21",
   "status": "proved",
   "theorems": [
    "Noise.C21_fresh_nonces",
    "Noise.C21_requests_linearizable"
   ],
   "note": "all histories of requests, responses and cancellations, including counter wrap; concurrent calls are linearizable, so the histories are those of concurrent callers too"
  },
  {
   "property": "C22",
   "status": "proved",
   "theorems": [
    "Noise.C22_responses"
   ],
   "note": "all schedules of the client transition system"
  },
  {
   "property": "C23",
   "status": "partial",
   "theorems": [
    "Noise.C23_blocked_forever_refuted",
    "Noise.C23_witness",
    "Noise.C23_returns_partial"
   ],
   "note": "false of the code: requestMap.close is never called, so a Request blocked on a dropped connection waits for its context; proved: universal non-termination, a reachable witness, and what does wake a Request"
  },
  {
   "property": "C25",
   "status": "partial",
   "theorems": [
    "Noise.C25_second_response_refuted",
    "Noise.C25_second_response_witness",
    "Noise.C25_first_response_partial"
   ],
   "note": "false for second and later responses with the same nonce; the first response never reaches the handlers, even after cancellation"
  },
  {
   "property": "C26",
   "status": "proved",
   "theorems": [
    "Noise.C26_fifo"
   ],
   "note": ""
  },
  {
   "property": "C27",
   "status": "partial",
   "theorems": [
    "Noise.C27_send_after_close_refuted",
    "Noise.C27_closed_witness",
    "Noise.C27_send_transmits_partial"
   ],
   "note": "false of the code: send always returns nil; proved: after close nothing new is ever written, and before close everything submitted is written and flushed in a bounded number of writer steps"
  },
  {
   "property": "C28",
   "status": "proved",
   "theorems": [
    "Noise.C28_first_error"
   ],
   "note": ""
  },
  {
   "property": "C29",
   "status": "partial",
   "theorems": [
    "Noise.C29_disconnected_without_connected_refuted",
    "Noise.C29_callbacks_partial"
   ],
   "note": "false for outbound connections with a failed handshake; everything else in the statement is proved"
  },
  {
   "property": "C30",
   "status": "partial",
   "theorems": [
    "Noise.C30_plaintext_delivered_refuted",
    "Noise.C30_delivered_partial"
   ],
   "note": "false for outbound connections with a failed handshake; proved for all other deliveries"
  },
  {
   "property": "C31",
   "status": "proved",
   "theorems": [
    "Noise.C31_lifecycle"
   ],
   "note": ""
  },
  {
   "property": "C32",
   "status": "partial",
   "theorems": [
    "Noise.C32_close_during_dial_refuted",
    "Noise.C32_close_blocked_refuted",
    "Noise.C32_close_blocked_witness",
    "Noise.C32_close_terminates_partial"
   ],
   "note": "false when Close races with the dial, and when the work queue does not accept; otherwise terminates within an explicit bound"
  },
  {
   "property": "C33",
   "status": "partial",
   "theorems": [
    "Noise.C33_writer_outlives_refuted",
    "Noise.C33_writer_ends_partial"
   ],
   "note": "false of the code: the writer goroutine may outlive WaitUntilClosed; proved that it ends within an explicit bound"
  },
  {
   "property": "C24",
   "status": "partial",
   "theorems": [
    "Noise.C24_many_responses_refuted",
    "Noise.C24_one_response_partial"
   ],
   "note": "False as stated: the context is copied per handler, so several handlers can each respond. Proved: at most one response per handler invocation's context."
  },
  {
   "property": "C34",
   "status": "proved",
   "theorems": [
    "Noise.C34_inbound_bounded"
   ],
   "note": ""
  },
  {
   "property": "C35",
   "status": "partial",
   "theorems": [
    "Noise.C35_outbound_exceeds_refuted",
    "Noise.C35_outbound_bounded_partial"
   ],
   "note": "False: both pools are bounded by the inbound maximum. Proved for maxInbound <= maxOutbound."
  },
  {
   "property": "C36",
   "status": "proved",
   "theorems": [
    "Noise.C36_lru",
    "Noise.C36_most_recent"
   ],
   "note": ""
  },
  {
   "property": "C37",
   "status": "partial",
   "theorems": [
    "Noise.C37_eviction_deadlocks_refuted",
    "Noise.C37_full_pool_reachable",
    "Noise.C37_get_completes_partial",
    "Noise.C37_few_addresses_partial"
   ],
   "note": "False: every eviction waits, with the pool's mutex held, for a client whose end needs the mutex. Proved: calls that need no eviction complete."
  },
  {
   "property": "C43",
   "status": "partial",
   "theorems": [
    "Noise.C43_workers_die_refuted",
    "Noise.C43_error_closes_partial"
   ],
   "note": "False: the worker that ran the failing handler ends, so later messages may never be handled. Proved: the error is reported on and closes only the client of the message."
  },
  {
   "property": "C44",
   "status": "proved",
   "theorems": [
    "Noise.C44_handlers_in_order",
    "Noise.C44_all_handlers_run"
   ],
   "note": ""
  },
  {
   "property": "C71",
   "status": "proved",
   "theorems": [
    "Noise.C71_removes_own",
    "Noise.C71_disappears",
    "Noise.C71_pool_removes_own",
    "Noise.C71_pool_by_itself"
   ],
   "note": "Proved of the whole node. C71_pool_by_itself shows that it would be false if a node used a pool again after releasing it, since removal is by address."
  },
  {
   "property": "C38",
   "status": "partial",
   "theorems": [
    "Noise.C38_dial_partial",
    "Noise.C38_attempts_after_cancel_refuted",
    "Noise.C38_may_block_refuted"
   ],
   "note": "False in two clauses: attempts go on after the context has ended, and waiting for readiness is not bounded by the context. Everything else in the statement is proved."
  },
  {
   "property": "C39",
   "status": "proved",
   "theorems": [
    "Noise.C39_options",
    "Noise.C39_at_least_one"
   ],
   "note": ""
  },
  {
   "property": "C40",
   "status": "proved",
   "theorems": [
    "Noise.C40_advertised_identity",
    "Noise.C40_unusable_public_address"
   ],
   "note": ""
  },
  {
   "property": "C41",
   "status": "partial",
   "theorems": [
    "Noise.C41_window_refuted",
    "Noise.C41_ignored_partial"
   ],
   "note": "False: Listen sets the flag in the goroutine it starts. Proved from that goroutine's first statement on."
  },
  {
   "property": "C42",
   "status": "partial",
   "theorems": [
    "Noise.C42_never_listened_refuted",
    "Noise.C42_early_close_refuted",
    "Noise.C42_returns_early_refuted",
    "Noise.C42_lost_workers_refuted",
    "Noise.C42_lost_workers_witness",
    "Noise.C42_late_connection_refuted",
    "Noise.C42_late_connection_witness",
    "Noise.C113_full_pool_ends_the_node_refuted",
    "Noise.C42_close_released_partial",
    "Noise.C42_connections_partial",
    "Noise.C42_node_close_released_partial",
    "Noise.C42_node_close_steps_partial",
    "Noise.C42_node_close_completes_partial",
    "Noise.C42_close_stops_accepting_partial",
    "Noise.C42_close_terminates_partial"
   ],
   "note": "False in seven ways: never listened; a connection that has just been accepted, whose goroutine Close overtakes, is served for ever and keeps the accept goroutine from ending; Close before the accept goroutine runs; the first Close returns early; outbound connections are never closed; all workers lost to handler errors while an inbound connection has a message for the full work channel; an eviction under way. Proved: a Close that returns because the accept goroutine ended returns after all inbound connections and workers ended, also in the whole-node model; and in the whole-node model, once the listener is closed, nothing is being accepted, the goroutines of accepted connections have begun and a worker is left, the steps of closing are bounded explicitly, the node does not get stuck before every Close has returned and everything inbound has ended, and so it is closed in the end in every fair execution."
  },
  {
   "property": "C72",
   "status": "partial",
   "theorems": [
    "Noise.C72_default_idle_timeout_refuted",
    "Noise.C72_configured_idle_timeout_partial"
   ],
   "note": "False: NewNode sets no default, so there is no idle timeout unless configured. Configured timeouts are used."
  },
  {
   "property": "C73",
   "status": "proved",
   "theorems": [
    "Noise.C73_address_parses",
    "Noise.C73_address_nowhere"
   ],
   "note": ""
  },
  {
   "property": "C74",
   "status": "partial",
   "theorems": [
    "Noise.C74_loopback_binds_everywhere_refuted",
    "Noise.C74_binds_to_host_partial"
   ],
   "note": "False for loopback hosts, which bind to all interfaces. Proved for every other host."
  },
  {
   "property": "C45",
   "status": "proved",
   "theorems": [
    "Noise.C45_xor_metric",
    "Noise.C45_xor_lengths"
   ],
   "note": ""
  },
  {
   "property": "C46",
   "status": "proved",
   "theorems": [
    "Noise.C46_prefixes",
    "Noise.C46_common_prefix"
   ],
   "note": ""
  },
  {
   "property": "C47",
   "status": "proved",
   "theorems": [
    "Noise.C47_sorted",
    "Noise.C47_deterministic"
   ],
   "note": "for every sorting algorithm that meets the contract of sort.Slice"
  },
  {
   "property": "C48",
   "status": "proved",
   "theorems": [
    "Noise.C48_invariants"
   ],
   "note": ""
  },
  {
   "property": "C49",
   "status": "proved",
   "theorems": [
    "Noise.C49_update",
    "Noise.C49_keeps_address"
   ],
   "note": ""
  },
  {
   "property": "C50",
   "status": "proved",
   "theorems": [
    "Noise.C50_delete",
    "Noise.C50_delete_by_address"
   ],
   "note": ""
  },
  {
   "property": "C51",
   "status": "proved",
   "theorems": [
    "Noise.C51_find_closest",
    "Noise.C51_negative_panics"
   ],
   "note": ""
  },
  {
   "property": "C52",
   "status": "partial",
   "theorems": [
    "Noise.C52_misses_closer_refuted",
    "Noise.C52_closest_partial",
    "Noise.C52_peers_partial"
   ],
   "note": "False: FindClosest stops as soon as it has k peers and can miss a closer one. Proved: what it does guarantee, and that Peers is exact."
  },
  {
   "property": "C53",
   "status": "proved",
   "theorems": [
    "Noise.C53_request",
    "Noise.C53_response_roundtrip",
    "Noise.C53_response_total"
   ],
   "note": ""
  },
  {
   "property": "C54",
   "status": "partial",
   "theorems": [
    "Noise.C54_ack_partial",
    "Noise.C54_two_evictions_refuted"
   ],
   "note": "False when another recorded peer shares the tail's address; proved otherwise."
  },
  {
   "property": "C55",
   "status": "partial",
   "theorems": [
    "Noise.C55_evicted_never_admitted_refuted",
    "Noise.C55_order_refuted",
    "Noise.C55_reports_partial"
   ],
   "note": "False: a newcomer turned away is reported evicted, and reports can come in the wrong order. Proved: otherwise admissions and evictions balance with the table, in every interleaving."
  },
  {
   "property": "C56",
   "status": "partial",
   "theorems": [
    "Noise.C56_crash_refuted",
    "Noise.C56_crash_only_if_partial"
   ],
   "note": "False: Last panics on a bucket emptied between two calls. Proved: that is the only way, and needs sixteen removals in between."
  },
  {
   "property": "C57",
   "status": "proved",
   "theorems": [
    "Noise.C57_replies"
   ],
   "note": ""
  },
  {
   "property": "C58",
   "status": "proved",
   "theorems": [
    "Noise.C58_results"
   ],
   "note": "all schedules, all answers"
  },
  {
   "property": "C59",
   "status": "proved",
   "theorems": [
    "Noise.C59_terminates"
   ],
   "note": "explicit bound on the number of steps and no deadlock; that requests end is the timeout of the request"
  },
  {
   "property": "C60",
   "status": "proved",
   "theorems": [
    "Noise.C60_complete",
    "Noise.C60_deterministic"
   ],
   "note": ""
  },
  {
   "property": "C61",
   "status": "partial",
   "theorems": [
    "Noise.C61_asks_for_itself_refuted",
    "Noise.C61_target_not_found_refuted",
    "Noise.C61_known_target_partial"
   ],
   "note": "False: peers are asked for their own neighbourhood, and a target that is not an initial peer is never found. Proved for targets among the initial peers."
  },
  {
   "property": "C75",
   "status": "partial",
   "theorems": [
    "Noise.C75_impostor_refuted",
    "Noise.C75_owners_partial"
   ],
   "note": "False: whoever answers at the announced address counts. Proved if addresses are answered by their owners."
  },
  {
   "property": "C62",
   "status": "proved",
   "theorems": [
    "Noise.C62_keys"
   ],
   "note": ""
  },
  {
   "property": "C63",
   "status": "partial",
   "theorems": [
    "Noise.C63_two_workers_refuted",
    "Noise.C63_own_push_refuted",
    "Noise.C63_large_refuted",
    "Noise.C63_at_most_workers_partial",
    "Noise.C63_not_after_push_partial"
   ],
   "note": "False with two workers, during an own push, and for data of 65500 bytes or more (the cache refuses such keys). Proved for smaller data: at most as often as there are workers, so once with one worker; never after a push unless a handler is in between. Assumes that cache entries are kept."
  },
  {
   "property": "C64",
   "status": "partial",
   "theorems": [
    "Noise.C64_overlapping_refuted",
    "Noise.C64_large_refuted",
    "Noise.C64_not_to_itself_partial",
    "Noise.C64_not_back_partial",
    "Noise.C64_not_twice_partial",
    "Noise.C64_sequential_partial"
   ],
   "note": "False for large data and overlapping pushes; everything in the statement is proved for data of fewer than 65500 bytes."
  },
  {
   "property": "C65",
   "status": "partial",
   "theorems": [
    "Noise.C65_large_refuted",
    "Noise.C65_terminates_partial",
    "Noise.C65_progress_partial",
    "Noise.C65_covers_partial"
   ],
   "note": "False for large data, which is flooded for ever. Proved for smaller data in every network and interleaving: explicit bound on the number of steps, no deadlock, coverage; exactly once with one worker per node."
  },
  {
   "property": "C66",
   "status": "proved",
   "theorems": [
    "Noise.C66_agree",
    "Noise.C66_exchange_exists"
   ],
   "note": "Byte-level handshake of both ends; hypotheses are correct primitives (Crypto.Lawful), generated keys, 16-byte hosts (other hosts are padded on the wire, C01/C02) and a receive limit of at least 142 bytes."
  },
  {
   "property": "C67",
   "status": "proved",
   "theorems": [
    "Noise.C67_accepts",
    "Noise.C67_rejects",
    "Noise.C67_small_limit"
   ],
   "note": "Exact characterisation of the byte streams that are accepted; everything else ends in an error without panic and without a recorded ID."
  },
  {
   "property": "C68",
   "status": "proved",
   "theorems": [
    "Noise.C68_peer_authentication"
   ],
   "note": "Symbolic (Dolev-Yao) model, unbounded sessions and key leaks; perfect cryptography assumed."
  },
  {
   "property": "C69",
   "status": "partial",
   "theorems": [
    "Noise.C69_reflection_refuted",
    "Noise.C69_impersonation_refuted",
    "Noise.C69_somebody_else_partial"
   ],
   "note": "False: reflecting a node's messages completes the handshake with the node's own ID, and with an own ephemeral key the attacker even has the session key. Proved for every ID other than the node's own."
  },
  {
   "property": "C70",
   "status": "proved",
   "theorems": [
    "Noise.C70_conversion",
    "Noise.C70_unique",
    "Noise.C70_sign_bit"
   ],
   "note": "All 32-byte keys; includes a machine-checked proof that 2^255-19 is prime."
  },
  {
   "property": "C76",
   "status": "proved",
   "theorems": [
    "Noise.C76_agreement_and_forward_secrecy"
   ],
   "note": "Symbolic model; ephemeral keys of the two sessions must not leak."
  },
  {
   "property": "C77",
   "status": "partial",
   "theorems": [
    "Noise.C77_reflected_data_refuted",
    "Noise.C77_handshake_as_data_refuted",
    "Noise.C77_data_origin_partial"
   ],
   "note": "False: both directions use the same key and no direction or sequence number, so a node's own frames and the second handshake message are accepted as data. Proved: everything accepted was encrypted by one of the two ends of this very connection."
  },
  {
   "property": "C78",
   "status": "proved",
   "theorems": [
    "Noise.C78_request_submits"
   ],
   "note": ""
  },
  {
   "property": "C79",
   "status": "proved",
   "theorems": [
    "Noise.C79_receive_lossless",
    "Noise.C79_receive_continues"
   ],
   "note": ""
  },
  {
   "property": "C80",
   "status": "proved",
   "theorems": [
    "Noise.C80_end_to_end_order"
   ],
   "note": "Composition of both clients with the workers; the link is an ordered channel (tampering is in the symbolic model)."
  },
  {
   "property": "C81",
   "status": "proved",
   "theorems": [
    "Noise.C81_responses_answer_the_request"
   ],
   "note": "For fewer than 2^64-1 requests on the connection."
  },
  {
   "property": "C82",
   "status": "partial",
   "theorems": [
    "Noise.C82_stray_response_refuted",
    "Noise.C82_no_stray_partial"
   ],
   "note": "False with two answering handlers; proved for at most one handler."
  },
  {
   "property": "C83",
   "status": "partial",
   "theorems": [
    "Noise.C83_one_way_refuted",
    "Noise.C83_quiet_sender_refuted",
    "Noise.C83_timeouts_partial"
   ],
   "note": "False of the code: one-way traffic is timed out, and the write deadline is set before waiting for something to write. Timed model of the two loops."
  },
  {
   "property": "C84",
   "status": "partial",
   "theorems": [
    "Noise.C84_private_key_logged_refuted",
    "Noise.C84_session_key_logged_refuted",
    "Noise.C84_logged_partial"
   ],
   "note": "False of the code: Listen logs the private key and every successful handshake logs the session key, the latter with every line of that client. Failed handshakes log nothing."
  },
  {
   "property": "C85",
   "status": "partial",
   "theorems": [
    "Noise.C85_not_listening_refuted",
    "Noise.C85_identity_partial"
   ],
   "note": "False of the code for nodes without bind host and port that have not called Listen: they claim the all-zero identity. Assumes that signatures by the node's key do not verify under the all-zero key."
  },
  {
   "property": "C86",
   "status": "partial",
   "theorems": [
    "Noise.C86_snapshot_refuted",
    "Noise.C86_send_partial"
   ],
   "note": "False of the code: the caller's slice is kept until it is written. Proved for memory that the caller leaves alone."
  },
  {
   "property": "C87",
   "status": "proved",
   "theorems": [
    "Noise.C87_received_data_is_private"
   ],
   "note": ""
  },
  {
   "property": "C88",
   "status": "partial",
   "theorems": [
    "Noise.C88_nested_requests_refuted",
    "Noise.C88_free_worker_partial"
   ],
   "note": "False of the code: when all workers wait for responses and the queue is full, the receive loop that would read the responses is blocked for ever. Proved: it goes on as long as one worker is not waiting."
  },
  {
   "property": "C89",
   "status": "proved",
   "theorems": [
    "Noise.C89_end_to_end_bytes",
    "Noise.C89_responses_bytes",
    "Noise.C89_next_message_is_read",
    "Noise.C89_next_response_is_read"
   ],
   "note": "After a successful handshake (C66 for the common key); payloads below 2^31 bytes and receive limits from 1 to 2^32-5 (the default is 4 MiB)."
  },
  {
   "property": "C90",
   "status": "partial",
   "theorems": [
    "Noise.C90_registration_order_refuted",
    "Noise.C90_typed_requests_partial"
   ],
   "note": "False of the code: opcodes count registrations on each node, so two nodes that bind the same protocols in different orders take a kademlia Ping for a gossip message without any error. Proved: it holds if the orders agree."
  },
  {
   "property": "C91",
   "status": "partial",
   "theorems": [
    "Noise.C91_calls_return_refuted",
    "Noise.C91_calls_return_partial"
   ],
   "note": "False of the code: if the last peer of a full bucket has the address that is being dialled, OnPeerConnected pings the very connection it is called from, which then waits for its own end; every call for that address hangs for ever. Proved: a call whose context ends returns if the connection it waits for is not in OnPeerConnected."
  },
  {
   "property": "C92",
   "status": "partial",
   "theorems": [
    "Noise.C92_no_data_races_partial",
    "Noise.C92_id_races_refuted",
    "Noise.C92_close_races_refuted"
   ],
   "note": "False of the code: ID races with the handshake, and Close (also when called by Ping whose context ends, or by the pool) races with the connection being set. Proved: no other field has a race, and none at all if ID and Close are called after waiting for the connection."
  },
  {
   "property": "C93",
   "status": "partial",
   "theorems": [
    "Noise.C93_concurrent_registration_refuted",
    "Noise.C93_registration_partial",
    "Noise.C93_closed_partial"
   ],
   "note": "False of the code: of two overlapping calls one may be lost. Proved: everything is kept, in order, if calls do not overlap."
  },
  {
   "property": "C94",
   "status": "proved",
   "theorems": [
    "Noise.C94_sent_is_handled"
   ],
   "note": "Under weak fairness of every goroutine and of the network, and strong fairness of the work queue (Spec/Fair.lean, Spec/Live.lean); handlers are assumed to return, without error."
  },
  {
   "property": "C95",
   "status": "proved",
   "theorems": [
    "Noise.C95_request_returns"
   ],
   "note": "Same fairness assumptions; C81 says that the response is the one to this request."
  },
  {
   "property": "C96",
   "status": "partial",
   "theorems": [
    "Noise.C96_sent_callback_refuted",
    "Noise.C96_recv_callback_refuted",
    "Noise.C96_recv_witness",
    "Noise.C96_callbacks_partial"
   ],
   "note": "False of the code: OnMessageSent is called once per flush, however many messages it contains, and OnMessageRecv is never called for responses. Proved: writes, flush and call alternate, nothing flushed stays unannounced, and there is exactly one OnMessageRecv per message given to the handlers."
  },
  {
   "property": "C97",
   "status": "partial",
   "theorems": [
    "Noise.C97_sent_after_disconnect_refuted",
    "Noise.C97_recv_without_connect_refuted",
    "Noise.C97_callbacks_while_connected_partial"
   ],
   "note": "False of the code: nothing waits for the writer before OnPeerDisconnected, and an outbound connection whose handshake failed goes on receiving. Proved: no message callback before OnPeerConnected if that is called, and no OnMessageRecv after OnPeerDisconnected."
  },
  {
   "property": "C98",
   "status": "partial",
   "theorems": [
    "Noise.C98_crash_after_close_refuted",
    "Noise.C98_crash_happens_refuted",
    "Noise.C98_node_crash_refuted",
    "Noise.C98_no_crash_partial",
    "Noise.C98_node_no_crash_partial"
   ],
   "note": "False of the code: Close leaves outbound connections open and closes the work channel, and the next message on one of them panics in its receive goroutine. Proved, also for the whole node: this is the only panic in the model; inbound connections never cause it."
  },
  {
   "property": "C99",
   "status": "partial",
   "theorems": [
    "Noise.C99_stuck_refuted",
    "Noise.C99_stuck_happens_refuted",
    "Noise.C99_delivers_partial"
   ],
   "note": "False of the code: the send on the nil channel blocks for ever, and with it the responses. Proved: once Listen has made the channel, connections that are not stuck deliver as soon as there is room, and nothing is lost, duplicated or reordered between a receive loop and the workers."
  },
  {
   "property": "C100",
   "status": "proved",
   "theorems": [
    "Noise.C100_codec_linearizable"
   ],
   "note": "linearizable and deadlock-free, every interleaving of single accesses; for Marshal methods that do not use the node (C102 otherwise)"
  },
  {
   "property": "C101",
   "status": "proved",
   "theorems": [
    "Noise.C101_table_linearizable"
   ],
   "note": "linearizable and deadlock-free, every interleaving of single accesses"
  },
  {
   "property": "C102",
   "status": "partial",
   "theorems": [
    "Noise.C102_nested_encode_refuted",
    "Noise.C102_without_registration_partial"
   ],
   "note": "False of the code: encode calls Marshal while it holds the read lock, and a RegisterMessage in between makes the inner RLock wait for ever, with all later calls. Proved: without registrations in the meantime, all calls return and return the right bytes."
  },
  {
   "property": "C103",
   "status": "proved",
   "theorems": [
    "Noise.C103_table_authenticated"
   ],
   "note": "composition of any number of connections with the routing table; that the ID passed to OnPeerConnected is the one proved in the handshake is C67 and C68"
  },
  {
   "property": "C104",
   "status": "partial",
   "theorems": [
    "Noise.C104_activity_of_nobody_refuted",
    "Noise.C104_events_authenticated_partial"
   ],
   "note": "False of the code: on an outbound connection whose handshake failed, a message sent or received calls OnPeerActivity with the zero ID. Proved: the zero key is the only exception, and it is never admitted or evicted."
  },
  {
   "property": "C105",
   "status": "partial",
   "theorems": [
    "Noise.C105_address_not_updated_refuted",
    "Noise.C105_witness",
    "Noise.C105_recorded_after_eviction_partial"
   ],
   "note": "False of the code: Update moves the old entry to the front and keeps its address. Proved: after the old address has been evicted by a failed dial, the next contact records the new one."
  },
  {
   "property": "C106",
   "status": "partial",
   "theorems": [
    "Noise.C106_stale_ping_refuted",
    "Noise.C106_answering_peer_stays_partial"
   ],
   "note": "False of the code: a failed ping deletes by key, also an entry that was recorded under a new address in the meantime. Proved: otherwise an answering peer stays, in every interleaving."
  },
  {
   "property": "C107",
   "status": "partial",
   "theorems": [
    "Noise.C107_healthy_connection_closed_refuted",
    "Noise.C107_close_justified_partial"
   ],
   "note": "False of the code: a call with an ended context that finds a healthy connection in the pool may close it and reports its peer as unreachable. Proved: a connection is closed by this node only by the application, after an error, or by a call to that address whose context has ended."
  },
  {
   "property": "C108",
   "status": "partial",
   "theorems": [
    "Noise.C108_context_of_another_refuted",
    "Noise.C108_failures_partial"
   ],
   "note": "False of the code: the connection is dialed with the context of the call that created it, and the error fails the other calls at once. Proved: a call whose context has not ended fails only after errors on connections to its own address, after all attempts or a context error; and it returns only a client for its own address."
  },
  {
   "property": "C109",
   "status": "partial",
   "theorems": [
    "Noise.C109_kept_for_ever_refuted",
    "Noise.C109_leak_happens_refuted",
    "Noise.C109_released_partial"
   ],
   "note": "False of the code: a request whose context ended stays in the map of pending requests until a response with its nonce comes, and for ever if none does, also after the connection is closed. Proved: a request is kept exactly until a message with its nonce is processed, under one nonce only, and nothing is kept of a request that returned a response."
  },
  {
   "property": "C110",
   "status": "partial",
   "theorems": [
    "Noise.C110_any_address_refuted",
    "Noise.C110_claimed_by_key_partial"
   ],
   "note": "False of the code: any holder of a key can complete a handshake under any host and port. Proved: the whole ID of a connected peer was signed, with the session's shared key, by the key in it."
  },
  {
   "property": "C111",
   "status": "proved",
   "theorems": [
    "Noise.C111_ack_returns"
   ],
   "note": ""
  },
  {
   "property": "C112",
   "status": "proved",
   "theorems": [
    "Noise.C112_inbound_connections_bounded"
   ],
   "note": "Whole-node model: accept loop, both pools with eviction, all connections, calls, workers, Close."
  },
  {
   "property": "C113",
   "status": "partial",
   "theorems": [
    "Noise.C113_full_pool_ends_the_node_refuted",
    "Noise.C113_next_connection_refuted",
    "Noise.C113_witness",
    "Noise.C113_accepts_few_addresses_partial"
   ],
   "note": "False of the code: the first connection from a further address while the pool is full ends the node for good: nothing is accepted any more, no Close and no Inbound() returns, no inbound connection ever ends. Proved: as long as connections come from at most maxInboundConnections addresses, every one is taken with one step."
  },
  {
   "property": "C114",
   "status": "partial",
   "theorems": [
    "Noise.C114_full_pool_ends_calls_refuted",
    "Noise.C114_next_call_refuted",
    "Noise.C114_witness",
    "Noise.C114_few_addresses_partial",
    "Noise.C114_calls_return_partial"
   ],
   "note": "False of the code: the first call to a further address while the outbound pool is full hangs for ever, and with it every later call of Ping, Send and Request to any address, whatever their contexts. Proved: as long as calls go to at most maxInboundConnections addresses (which bounds both pools), every call gets a client with one step, and every call whose context ends returns, under fair scheduling; Ping and Send return even without, if attempts to connect do not hang."
  },
  {
   "property": "C115",
   "status": "partial",
   "theorems": [
    "Noise.C115_ignored_refuted",
    "Noise.C115_witness",
    "Noise.C115_served_have_clients_partial",
    "Noise.C115_ignored_only_if_known_partial"
   ],
   "note": "False of the code: a connection from an address that the pool has a client for is neither served nor closed. Proved: this is the only case; all other connections have a client of their own each, in order."
  },
  {
   "property": "C116",
   "status": "partial",
   "theorems": [
    "Noise.C116_later_messages_lost_refuted",
    "Noise.C116_up_to_the_first_partial"
   ],
   "note": "False of the code: Send takes messages of any size, and the receiver ends the connection at the first one above its limit, so everything after it is lost. Proved: exactly the messages before the first oversized one are received, then the error that says so."
  },
  {
   "property": "C117",
   "status": "proved",
   "theorems": [
    "Noise.C117_ready",
    "Noise.C117_calls_reach_authenticated_peers"
   ],
   "note": ""
  },
  {
   "property": "C118",
   "status": "proved",
   "theorems": [
    "Noise.C118_responses_not_shared"
   ],
   "note": ""
  },
  {
   "property": "C119",
   "status": "proved",
   "theorems": [
    "Noise.C119_lists"
   ],
   "note": ""
  },
  {
   "property": "C120",
   "status": "partial",
   "theorems": [
    "Noise.C120_second_listen_crashes_refuted",
    "Noise.C120_lost_listener_refuted",
    "Noise.C120_lost_witness",
    "Noise.C120_close_crashes_refuted",
    "Noise.C120_second_life_refuted",
    "Noise.C120_later_listen_partial"
   ],
   "note": "false of the code: the node counts as listening once its accept goroutine has run, not when Listen returns; a second Listen that begins before that fails to bind and sets the listener to nil, after which the next connection crashes the process and Close waits for ever. Proved: once the accept goroutine has run, further calls return errors and change nothing."
  },
  {
   "property": "C121",
   "status": "partial",
   "theorems": [
    "Noise.C121_cluster_refuted",
    "Noise.C121_cluster_witness",
    "Noise.C121_small_tables_partial"
   ],
   "note": "False of the code: each peer is asked for the 16 nearest to itself, so a search does not leave a crowd of 17 near peers, however many others they know. Proved: it reaches everybody while the tables hold at most 16 other peers."
  },
  {
   "property": "C122",
   "status": "partial",
   "theorems": [
    "Noise.C122_crash_before_listen_refuted",
    "Noise.C122_witness",
    "Noise.C122_after_listen_partial"
   ],
   "note": "False of the code: the routing table is nil until Listen; before it the process crashes at the first completed handshake, failed dial, or call of Discover, Find or Push. Proved: from Listen on there is no such crash, also on connections begun before."
  },
  {
   "property": "C123",
   "status": "partial",
   "theorems": [
    "Noise.C123_id_races_refuted",
    "Noise.C123_bind_races_refuted",
    "Noise.C123_one_goroutine_races_refuted",
    "Noise.C123_configure_first_partial",
    "Noise.C123_close_any_time_partial"
   ],
   "note": "False of the code: ID and Addr race with Listen, Bind with Bind and Handle with Handle, Handle after Listen with workers, and Listen after Ping with the connection. Proved: no race on any field if one goroutine configures the node before it starts or dials anything; no race on the listener in any case, so Close may be called at any time."
  },
  {
   "property": "C124",
   "status": "partial",
   "theorems": [
    "Noise.C124_typed_lines_partial",
    "Noise.C124_commands_stay",
    "Noise.C124_all_bytes_partial",
    "Noise.C124_long_line_refuted",
    "Noise.C124_cut_character_refuted",
    "Noise.C124_witness",
    "Noise.C124_sixteen_refuted",
    "Noise.C124_small_table_partial"
   ],
   "note": "False of the code: a line of more than 4096 bytes is sent in pieces, of which one that begins with a slash is taken for a command and not sent, a character across the border is lost, and with more than 16 peers in the table only 16 are sent anything. Proved: lines of up to 4096 bytes arrive and are printed as typed; no byte is lost before commands are recognised; with up to 16 peers all are sent to."
  },
  {
   "property": "C125",
   "status": "partial",
   "theorems": [
    "Noise.C125_forged_line_refuted",
    "Noise.C125_attribution_partial",
    "Noise.C125_program_sends_no_line_feeds",
    "Noise.C125_unambiguous"
   ],
   "note": "False of the code: contents are printed as they are, so that a message with a line feed prints a line in the name of somebody else. Proved: correct attribution if no message contains a line feed, as is the case for all that the program itself sends; a line determines address, first four bytes of the key and words."
  },
  {
   "property": "C126",
   "status": "partial",
   "theorems": [
    "Noise.C126_reported_again_refuted",
    "Noise.C126_flood_refuted",
    "Noise.C126_delivered_partial",
    "Noise.C126_sent_partial",
    "Noise.C126_terminates_partial",
    "Noise.C126_progress_partial",
    "Noise.C126_covers_partial"
   ],
   "note": "False of the code: after more messages than the cache has entries, whatever it drops, one of them is reported again when it arrives again; in a ring of three a message can go round for ever. Proved with caches that may drop any entry at any time: reports and sends are bounded by the number of drops, floods end if drops about the message do, there is no deadlock, and nobody is left out."
  },
  {
   "property": "C127",
   "status": "partial",
   "theorems": [
    "Noise.C127_crash_refuted",
    "Noise.C127_both_end_refuted",
    "Noise.C127_never_returns_refuted",
    "Noise.C127_one_after_another_partial",
    "Noise.C127_as_new_partial"
   ],
   "note": "False of overlapping calls: a second call makes one that is waiting wait for ever, two searches never both end, and with the default options the process can crash (close of a closed channel). Proved of calls that do not overlap, in both directions: the searches of a used iterator are those of a new one."
  },
  {
   "property": "C128",
   "status": "proved",
   "theorems": [
    "Noise.C128_nil_means_accepting",
    "Noise.C128_nothing_left"
   ],
   "note": "Calls that return nil and accept goroutines are the same number at every moment; at most one listener is open, and none if no call is under way and none has returned nil."
  },
  {
   "property": "C129",
   "status": "proved",
   "theorems": [
    "Noise.C129_canonical_address"
   ],
   "note": "Equivalence with a specification of the canonical text (RFC 5952) that does not compute it."
  },
  {
   "property": "C130",
   "status": "proved",
   "theorems": [
    "Noise.C130_request_ends"
   ],
   "note": "In the whole-node model, at every later moment: the call has returned, or at most two steps of its own make it return."
  },
  {
   "property": "C131",
   "status": "proved",
   "theorems": [
    "Noise.C131_attribution",
    "Noise.C131_sent",
    "Noise.C131_inbound"
   ],
   "note": "In the whole-node model. Sent means handed to the writer of the connection (that it is written in order, and when not, is the subject of other properties)."
  },
  {
   "property": "C132",
   "status": "proved",
   "theorems": [
    "Noise.C132_messages",
    "Noise.C132_origin",
    "Noise.C132_not_repeated",
    "Noise.C132_response",
    "Noise.C132_no_stray"
   ],
   "note": "In the network model (Model/Net.lean): any number of whole nodes; which connections are joined, and when, is up to the environment. Proved by showing that every connection between two whole nodes refines the two-node model of Model/Link.lean. C132_response assumes, as C81, fewer than 2^64 - 1 requests over a connection. Tampering and the handshake are the subject of other properties."
  },
  {
   "property": "C133",
   "status": "proved",
   "theorems": [
    "Noise.C133_sent_is_handled",
    "Noise.C133_send_is_handled",
    "Noise.C133_answered_request_returns",
    "Noise.C133_request_returns",
    "Noise.C133_send_arrives",
    "Noise.C133_answered_request_arrives",
    "Noise.C133_request_arrives"
   ],
   "note": "In the network model. Those named arrives follow a call from its beginning, when it is for the address of this connection and the node calls no more addresses than its pool may hold (otherwise: C114). Fairness: every goroutine that stays able to run runs, the network delivers what has been flushed, the queue serves the receive loops that wait. Nothing fails on the connection: no error recorded, not closed, neither node crashes or closes, handlers of the two nodes return no errors, and the dialling node listens (otherwise nobody serves its queue: C99). The context of the call does not end; C133_request_returns assumes fewer than 2^64 - 1 requests over the connection."
  },
  {
   "property": "C134",
   "status": "proved",
   "theorems": [
    "Noise.C134_key_json"
   ],
   "note": "encoding/json is trusted to write a string of characters that need no escape between quotes."
  },
  {
   "property": "C135",
   "status": "partial",
   "theorems": [
    "Noise.C135_many_peers_refuted",
    "Noise.C135_stuck_refuted",
    "Noise.C135_witness",
    "Noise.C135_returns_partial"
   ],
   "note": "False: the requests of a search go through the pool of outbound connections, which blocks for ever when it has to evict (C114). A search that gets to know live peers at more than maxInboundConnections addresses never returns, whatever the timeouts (C135_many_peers_refuted gives the bound, C135_stuck_refuted that there is no way out, C135_witness a case). Proved instead: with calls to at most maxInboundConnections addresses, every fair execution returns, assuming that timeouts pass, connections that are closed come to an end, and the process does not crash."
  },
  {
   "property": "C136",
   "status": "proved",
   "theorems": [
    "Noise.C136_results_answered"
   ],
   "note": "In the model of a search on a whole node (Model/Search.lean). That the peer at the address need not own the key of the result is C75."
  },
  {
   "property": "C137",
   "status": "proved",
   "theorems": [
    "Noise.C137_known_when_ready",
    "Noise.C137_connected_recorded",
    "Noise.C137_bootstrap"
   ],
   "note": "In Model/KadSync.lean, where the goroutine that calls a callback waits for it. That the connection becomes ready at all is C91 (false in general)."
  },
  {
   "property": "C138",
   "status": "proved",
   "theorems": [
    "Noise.C138_iterator_options",
    "Noise.C138_protocol_options",
    "Noise.C138_gossip_options"
   ],
   "note": ""
  },
  {
   "property": "C139",
   "status": "proved",
   "theorems": [
    "Noise.C139_usable_options"
   ],
   "note": "Sizes too large for the memory, for which make panics too, are not modelled."
  },
  {
   "property": "C140",
   "status": "proved",
   "theorems": [
    "Noise.C140_origin",
    "Noise.C140_closed",
    "Noise.C140_destinations",
    "Noise.C140_limits",
    "Noise.C140_no_replies"
   ],
   "note": "Model/GossipWire.lean. The limits hold for data of fewer than 65500 bytes, as in C63 and C64."
  },
  {
   "property": "C141",
   "status": "proved",
   "theorems": [
    "Noise.C141_not_dropped",
    "Noise.C141_accepted"
   ],
   "note": ""
  },
  {
   "property": "C142",
   "status": "partial",
   "theorems": [
    "Noise.C142_many_peers_refuted",
    "Noise.C142_stuck_refuted",
    "Noise.C142_worker_refuted",
    "Noise.C142_witness",
    "Noise.C142_returns_partial"
   ],
   "note": "False: the sends of a push go through the pool of outbound connections, which blocks for ever when it has to evict (C114). A push that sends to live peers at more than maxInboundConnections addresses never returns (C142_many_peers_refuted gives the bound, C142_stuck_refuted that there is no way out), and each worker of the node whose Handle pushes is lost with it (C142_worker_refuted). Proved instead: with at most that many addresses on the node, a push returns under fair scheduling, provided that attempts to connect do not hang or its context ends."
  },
  {
   "property": "C143",
   "status": "partial",
   "theorems": [
    "Noise.C143_wrong_peer_refuted",
    "Noise.C143_address_partial",
    "Noise.C143_right_peer_partial"
   ],
   "note": "False: Push sends to the address of a peer of the routing table and marks the peer as having the data, whoever answers at that address. Proved instead: what is counted as sent was given to a connection dialled at that address whose peer is authenticated, as whoever that may be; it is the peer if only the peer answers there."
  },
  {
   "property": "C144",
   "status": "proved",
   "theorems": [
    "Noise.C144_sent_is_reported",
    "Noise.C144_push_is_reported"
   ],
   "note": "On the network of nodes that gossip, in fair executions (as in C133: in particular handlers return, and the callback with them), over a connection on which nothing fails, for a node that calls no more addresses than its pool may hold; the contexts of the push do not end. The exceptions are part of the statement: the receiving application pushed the data itself or was sent it by a peer with its own key; the pushing node takes the owner of the key for somebody who has the data already (C143 shows that it may be wrong about this)."
  },
  {
   "property": "C145",
   "status": "proved",
   "theorems": [
    "Noise.C145_gossip_spreads",
    "Noise.C145_reaches_everybody"
   ],
   "note": "On the network of nodes that gossip, in fair executions, for nodes with different keys whose applications accept what is reported and do not send gossip messages by other means than Push, in a closed network in which accepted connections have the key of the node that dialled them. Each node of the path calls no more addresses than its pool may hold, the contexts of its pushes do not end, and its table has the next node, under the address of the connection, whenever a push reads it. Marks are not forgotten in this model (C126 is about a cache that forgets)."
  },
  {
   "property": "C146",
   "status": "proved",
   "theorems": [
    "Noise.C146_known_at_first_hand",
    "Noise.C146_results_answer",
    "Noise.C146_no_phantoms"
   ],
   "note": "On the network of nodes with kademlia, for executions in which no connection leads out of the network, no other handler sends FindNodeResponses, and identities known at first hand have the form that UnmarshalID gives them (a host of 16 bytes, the address of host and port); fewer than 2^64-1 requests per connection. The last theorem also supposes that nodes are honest about their identities and addresses."
  },
  {
   "property": "C147",
   "status": "proved",
   "theorems": [
    "Noise.C147_queries_answered",
    "Noise.C147_handler_goes_on"
   ],
   "note": "In the network model with kademlia on every node; fairness is that of the goroutines of this model, and that the handler of kademlia returns is shown, not assumed. As in C133: fair executions, a connection on which nothing fails, the context of the request does not end, the dialling node calls no more addresses than its pool may hold, fewer than 2^64-1 requests on the connection. No other handler of the accepting node answers requests with this data (the first answer is returned). That goroutines go on includes that the calls of Ack return that their callbacks make (they may not, as their pings may not: C114)."
  },
  {
   "property": "C148",
   "status": "proved",
   "theorems": [
    "Noise.C148_search_returns",
    "Noise.C148_search_ends",
    "Noise.C148_finds_everybody"
   ],
   "note": "In the network model with kademlia on every node, for fair executions in which the goroutines of the search are scheduled too. As in C133 and C147: connections to reliable addresses are ones on which nothing fails, the contexts of the requests to them do not end, the searching node calls no more addresses than its pool may hold. The first two theorems allow other addresses, at which requests return with whatever result, or end with their contexts. The last supposes that the tables contain the identities of nodes only (C146) and at most 16 others each. That goroutines go on includes that the calls of Ack return that their callbacks make (they may not, as their pings may not: C114)."
  },
  {
   "property": "C149",
   "status": "proved",
   "theorems": [
    "Noise.C149_removed_for_cause",
    "Noise.C149_answering_peers_stay",
    "Noise.C149_silent_peers_go"
   ],
   "note": "In the network model with kademlia on every node, where the pings of Ack are requests of the node and OnPingFailed is called for its calls that could not connect. The second part has the assumptions of C147 (a connection on which nothing fails, the context of the ping does not end, no more addresses called than the pool may hold) and lets the call of Ack go on once its ping has returned. In the code the goroutine that calls a callback waits for Ack: that the goroutines of the connections go on includes that the calls of Ack that they make return, which C150_known_peers shows for recorded peers (it fails if the pinged address is that of the very connection whose receive loop has called Ack, see C91). That pings may not return is C114."
  },
  {
   "property": "C150",
   "status": "proved",
   "theorems": [
    "Noise.C150_ack_returns",
    "Noise.C150_known_peers"
   ],
   "note": "In the network model with kademlia on every node, where the pings of Ack are requests of the node. The assumptions of the first theorem are those of C149_answering_peers_stay, for every identity that is in the table at some time, and that the goroutine of the call goes on. In this model the goroutine that calls a callback goes on while Ack runs; in the code it waits. So fairness towards the goroutines of the connections includes that the calls of Ack that they make return, which is the second theorem for recorded peers; it does not hold if the pinged address is that of the connection whose receive loop has called Ack (a peer that came back with another key, see C91). That no process crashes is an assumption too (C56 says when Ack does). For other networks: C111 bounds the steps of a call whose pings end; that they may not end is C114."
  }
 ]
}