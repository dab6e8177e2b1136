P, H, N = "proved", "partial", "not_applicable"
claims = {
 "C13": (P, ["Verif.cookie_value_bound_to_host", "Verif.cookie_value_is_truncation"],
   "Unconditional reduction: equal full-length values imply equal secret and host or an explicit collision among the listed hash queries. The deployed cookie value is the 16-byte truncation of the proved value."),
 "C23": (P, ["Verif.osk_domain_separation", "Verif.osk_for_separated", "Verif.osk_wireguard_alias"],
   "Reduction to an explicit hash collision; the one alias (custom 'rosenpass.eu'/'wireguard psk' equals the WireGuard separator) is proved as osk_wireguard_alias and excluded explicitly."),
 "C25": (P, ["Verif.hash_domains_separated", "Verif.hash_domain_injective", "Verif.chaining_key_uses_separated", "Verif.versions_separated"], "Reduction to an explicit hash collision."),
 "C29": (P, ["Verif.envelope_wire_bijection", "Verif.payload_wire_bijection", "Verif.envelope_layout", "Verif.payload_layout", "Verif.msg_type_codes"], ""),
 "C30": (P, ["Verif.ConstantTime.increment_is_succ"], ""),
 "C31": (P, ["Verif.ConstantTime.compare_is_integer_comparison"], ""),
 "C32": (P, ["Verif.ConstantTime.memcmp_iff_eq", "Verif.ConstantTime.xor_involutive_comm"], ""),
 "C14": (P, ["Verif.index_in_range", "Verif.session_id_not_taken_over"], "For every reachable server state."),
 "C15": (H, ["Verif.index_complete_partial", "Verif.index_incomplete"], "Full completeness is false of the code (initiating again with the very same random session id drops the index entry; witness proved as index_incomplete). Proved for histories in which a freshly drawn session id differs from the one being replaced."),
 "C16": (P, ["Verif.add_peer_injective", "Verif.peer_pointers_stable"], ""),
 "C01": (P, ["Verif.key_agreement", "Verif.key_agreement_interleaved"], "For every lawful suite whose KEM calls do not fail, every pair of reachable servers registered with each other, all randomness with unused session ids. Hypotheses stated in the theorem: the responder has not already accepted its current biscuit number, has not cached a response for the InitConf, and (V02 only) does not accept the same bytes under SHAKE256 first. key_agreement_interleaved allows arbitrary other activity between the messages."),
 "C05": (P, ["Verif.exchange_authenticated"], "For every reachable state and every received byte string."),
 "C08": (P, ["Verif.unsealed_rejected", "Verif.handleMsg_ok_sealed"], "CookieReply carries no MAC in the protocol (it is authenticated by its AEAD, C22)."),
 "C26": (P, ["Verif.version_separation"], "Acceptance across versions implies that the two MAC functions coincide on the message (explicit coincidence in the statement)."),
 "C02": (P, ["Verif.accepted_biscuits_increase", "Verif.recorded_conf_not_accepted_again"], "For every history between the two acceptances. recorded_conf_not_accepted_again has the hypothesis that the biscuit key slot was not overwritten; otherwise the recorded biscuit would have to open under a fresh random key."),
 "C03": (P, ["Verif.retransmitted_conf_idempotent"], "For every history after the acceptance during which the cached response of that peer is not replaced or dropped."),
 "C04": (P, ["Verif.issued_biscuits_increase"], "For every history from Server.new of fewer than 2^96-3 calls (beyond that the 12-byte counter wraps)."),
 "C06": (P, ["Verif.peer_isolation", "Verif.changed_peer_was_addressed"], "For every reachable state and every received byte string, under load or not: at most one peer's entry changes, and it is the peer to which the message verifiably belongs."),
 "C07": (H, ["Verif.rejected_no_effect_partial", "Verif.rejected_not_without_effect", "Verif.rejected_other_effects"], "The full statement is false of the code; the counterexamples are proved (rejected_not_without_effect, rejected_other_effects). The partial theorem lists exactly which rejected messages may leave an effect and on what."),
 "C09": (P, ["Verif.network_input_never_panics", "Verif.malformed_rejected", "Verif.timers_never_panic"], "Hypotheses: KEM calls do not fail internally (liboqs failure is a panic in the code), and the transmit buffer is at least as large as the largest message (FitsAll), which the application guarantees."),
 "C10": (P, ["Verif.reply_size", "Verif.reply_amplification"], "For every reachable state and every received byte string. Byte bounds use the deployed KEM sizes (RealSizes: 800-byte ephemeral key, 768-byte ephemeral ciphertext, 188-byte static ciphertext)."),
 "C11": (P, ["Verif.under_load_gate"], "Independence of the secret key is how 'no expensive work' is expressed: the outcome of a gated InitHello is the same for every secret key."),
 "C12": (P, ["Verif.cookie_liveness", "Verif.initiate_pending"], "Buffers large enough (FitsAll). initiate_pending shows that every successful initiate_handshake establishes the hypothesis Pending."),
 "C27": (P, ["Verif.biscuit_key_is_young", "Verif.biscuit_stays_valid", "Verif.biscuit_keys_expire"], "load_biscuit itself does not check the age of the key: expiry takes effect at the next poll, which is what biscuit_keys_expire states."),
 "C28": (H, ["Verif.cookie_secret_rotation_partial", "Verif.old_secret_issues_cookies"], "The half of the claim about issuing is false of the code: a secret between 120 s and 240 s old still issues cookies (old_secret_issues_cookies). Proved: no secret older than 240 s is used to issue or accept."),
 "C17": (P, ["Verif.session_lifecycle", "Verif.exchange_session"], "For every server state, polled until told to sleep (PollRun); thresholds up to the 2.5 ms clock granularity the code uses."),
 "C18": (P, ["Verif.poll_exact", "Verif.Server.poll_sleep_bounds", "Verif.poll_run_exact", "Verif.poll_run_terminates"], "Due and Timer are specified without reference to the polling machinery."),
 "C19": (H, ["Verif.rekey_requested_again_partial", "Verif.ignored_request_not_repeated"], "Holds for every history in which the application answers each request with a successful initiate_handshake. False in general: a request the application ignores (or whose initiation fails) is never repeated (proved)."),
 "C20": (P, ["Verif.retransmission_schedule", "Verif.retransmissions_spaced", "Verif.no_handshake_no_retransmission", "Verif.emptyData_ends_handshake", "Verif.initConf_ends_handshake", "Verif.retransmitted_content"], "Jitter is an arbitrary 53-bit fraction. The one immediate retransmission (an accepted CookieReply) is a case of the schedule."),
 "C21": (H, ["Verif.emptyData_ends_handshake", "Verif.forged_emptyData_harmless_partial", "Verif.forged_emptyData_blocks_genuine"], "First half proved. Second half is false of the code: a forged EmptyData with a large counter makes the genuine one stale (witness proved); proved for counters not larger than the genuine one."),
 "C22": (H, ["Verif.cookieReply_effect_partial", "Verif.forged_cookie_overwrites"], "False of the code as stated: a CookieReply that fails to decrypt overwrites the stored cookie and its age (witness proved); nothing else changes (proved), and accepted ones are authentic (proved)."),
 "C24": (P, ["Verif.transcript_binding", "Verif.output_key_binds_transcript", "Verif.initiator_transcript", "Verif.responder_transcript", "Verif.InitiatorSees.unique", "Verif.ResponderSees.unique"], "Reduction: two completed runs with equal output keys saw the same transcript, or the runs themselves exhibit an explicit hash collision, a forged biscuit, or an AEAD associated-data confusion."),
 "C33": (P, ["Verif.LengthPrefix.framing_round_trip", "Verif.LengthPrefix.encoder_sends_frame", "Verif.LengthPrefix.decoder_delivers_frame"], "For every message, buffer and every schedule of partial transfers, interruptions and errors."),
 "C34": (P, ["Verif.LengthPrefix.oversized_frame_rejected"], ""),
 "C35": (P, ["Verif.LengthPrefix.frame_stream_in_order"], ""),
 "C36": (P, ["Verif.FileIO.load_exact", "Verif.FileIO.read_slice_exact"], "For every file content, size and schedule of partial and interrupted reads."),
 "C37": (P, ["Verif.FileIO.b64_file_round_trip", "Verif.FileIO.b64_store_too_small", "Verif.FileIO.b64_round_trip"], "The base64ct codec is specified (RFC 4648, canonical, padded), not modelled line by line."),
 "C58": (H, ["Verif.FileIO.secret_file_private_partial", "Verif.FileIO.new_file_permissions", "Verif.FileIO.existing_secret_file_keeps_mode"], "Proved for files that did not exist. False of the code for existing files, whose mode is kept (proved)."),
 "C61": (P, ["Verif.FileIO.nonblocking_classification", "Verif.FileIO.interrupted_classification", "Verif.FileIO.substitute_exact"], ""),
 "C62": (P, ["Verif.FileIO.slice_copies", "Verif.FileIO.slice_copies_length", "Verif.FileIO.cat_spec"], ""),
 "C63": (H, ["Verif.FileIO.b64_load_accepts_partial", "Verif.FileIO.short_b64_accepted"], "Proved: nothing longer than the value and only canonical base64 is accepted. The rest is false of the code: shorter encodings are accepted and the remaining bytes are whatever the buffer held (witness: a key file truncated by a crash)."),
 "C64": (P, ["Verif.chaining_key_erased"], ""),
 "C65": (P, ["Verif.poll_fair"], ""),
 "C42": (P, ["Verif.Site.site_lifecycle", "Verif.Site.failed_build_is_final", "Verif.Site.taken_stays_void", "Verif.Site.edits_take_effect"], "For every builder, product and sequence of operations."),
 "C46": (H, ["Verif.Discovery.all_addresses_tried_partial", "Verif.Discovery.unreachable_address_blocks_discovery"], "False of the code in general: an address to which no socket can send uses up the shared socket iterator, and later addresses are never tried (witness proved)."),
 "C52": (P, ["Verif.host_id_injective", "Verif.host_id_injective_v4"], ""),
 "C66": (P, ["Verif.build_exact", "Verif.with_keypair_first"], ""),
 "C67": (H, ["Verif.Discovery.all_combinations_used_partial", "Verif.Discovery.combinations_used", "Verif.Discovery.combination_never_used"], "False of the code unless the numbers of addresses and sockets are coprime: address and socket advance together (witness proved; combinations_used says exactly which ones are used)."),
 "C68": (P, ["Verif.Endpoint.restart_discovery"], ""),
 "C47": (H, ["Verif.App.gives_up_after_eleven_failures_partial", "Verif.App.scattered_failures_stop_daemon", "Verif.App.undeliverable_answer_is_failure"], "Proved: the daemon gives up exactly at the eleventh failure in its lifetime. The claim is false of the code because successes never reset the counter (proved for any number of successes in between); a remote party that makes answers undeliverable causes such failures."),
 "C48": (H, ["Verif.App.peer_tables_aligned_partial", "Verif.App.unresolved_host_breaks_add_peer"], "Proved for every history in which host names resolve. False otherwise: an unresolved host name leaves the tables misaligned and the next add_peer panics (proved)."),
 "C49": (H, ["Verif.App.broker_handles_unique_partial", "Verif.App.socket_token_not_a_brokers", "Verif.App.broker_handle_collision", "Verif.App.failed_registration_panics_later"], "Proved for every history in which handles are taken back in the opposite order of registration and registrations with the poll succeed. False otherwise (both witnesses proved)."),
 "C51": (P, ["Verif.App.key_output_sound", "Verif.App.key_output_complete"], "Soundness for every round, whatever fails; completeness for rounds whose I/O succeeds and whose broker is registered. Writing the key goes through the file model (FileIO)."),
 "C69": (H, ["Verif.App.event_loop_no_panic_partial", "Verif.App.unregistered_broker_panics"], "Proved for every history in which host names resolve and while the brokers in use are registered; KEM calls do not fail internally and the transmit buffer is large enough. False otherwise: unregistering a broker in use makes the next key output panic (proved)."),
 "C70": (H, ["Verif.App.lost_key_superseded_partial", "Verif.App.key_output_complete", "Verif.App.undelivered_answer_loses_key", "Verif.App.failed_erase_not_repeated"], "False of the code: an exchanged key is lost when the answer to the last message cannot be sent, and a failed erase of an expired key is not repeated (both proved). Proved: nothing is lost when the I/O of the round succeeds; and whatever was lost before, from the peer's next key event on with working I/O what is put out is what the server holds."),
 "C50": (P, ["Verif.Recv.load_detection_exact", "Verif.Daemon.load_status_selects_path"], "For every history of arrivals and calls; the test flag enable_dos_permanently is not modelled; the floating-point ratio is modelled as an exact comparison (equal for fewer than 2^53 polls)."),
 "C71": (H, ["Verif.Recv.datagram_delayed_at_most_once_partial", "Verif.Recv.blocks_while_datagram_waits"], "False of the code with mio's edge-triggered readiness: after the first of two datagrams was read through its readiness event, the server blocks with the second one waiting (witness proved). Proved: a datagram is overlooked by at most one blocking poll."),
 "C72": (P, ["Verif.Recv.datagrams_delivered_in_order", "Verif.Recv.none_only_if_empty"], "The kernel's queue is modelled as unbounded; arrivals are interleaved between calls and during blocking polls."),
 "C73": (H, ["Verif.Recv.backlog_is_worked_off_partial", "Verif.Recv.flooded_socket_starves_others"], "False of the code: while the first socket never runs empty, the other sockets are never read (proved for any number of calls). Proved: once arrivals stop, every call delivers a waiting datagram until none is left."),
 "C60": (P, ["Verif.FdPass.descriptors_in_order_and_bounded", "Verif.FdPass.batch_all_or_none", "Verif.FdPass.write_sends_queue_front", "Verif.FdPass.claim_failure_loses_bytes"], "For every schedule of sends, receives and failures; the kernel side of SCM_RIGHTS is modelled. claim_failure_loses_bytes is a finding: bytes that came with a descriptor that cannot be claimed are lost."),
 "C38": (H, ["Verif.Api.tags_distinct", "Verif.Api.typeFromPrefix_spec", "Verif.Api.typeFromSuffix_spec", "Verif.Api.parse_exact", "Verif.Api.parse_prefix_exact", "Verif.Api.encode_parse", "Verif.Api.parse_suffix_partial", "Verif.Api.suffix_parse_wrong_type", "Verif.Api.misaligned_refused", "Verif.Api.setup_spec"], "False of the code for the suffix parser, which takes the type from the prefix (witness proved), and for buffers that are not 16-byte aligned (proved). Proved in full for exact and prefix parsing of aligned buffers."),
 "C39": (H, ["Verif.Api.closed_after_last_answer", "Verif.Api.requests_answered_once_in_order_partial", "Verif.Api.all_requests_answered", "Verif.Api.harmless_requests_answered", "Verif.Api.wellformed_answered", "Verif.Api.oversized_request_closes", "Verif.Api.Mgr.connections_do_not_mix", "Verif.Api.malformed_request_fails_forever", "Verif.Api.Mgr.poisoned_pass_fails"], "Proved: on every history, answers are exactly the answers to a prefix of the requests, in order, whatever the split of reads and writes, and with a cooperating kernel every well-formed request is answered; connections do not mix. False of the code: a malformed request makes its connection fail for ever, and with it every later pass over the connections (both proved)."),
 "C40": (H, ["Verif.Api.Mgr.every_connection_polled_partial", "Verif.Api.Mgr.event_never_reaches_connection", "Verif.Api.Mgr.event_panics_of_missing_listener", "Verif.Api.Mgr.lone_connection_event_panics"], "False of the code: connections are entered in the token table as listeners, so an event of a connection is never dispatched to it and panics when there is no listener of that number (proved). Proved: a full pass that succeeds polls every connection."),
 "C41": (P, ["Verif.App.keypair_supplied_once", "Verif.Api.request_uses_own_descriptors"], "The descriptor part is in the specification of a served request (Served.Ok): a request sees only the descriptors of its own bytes, two at most are claimed, and none is left for later requests."),
 "C43": (P, ["Verif.Broker.request_round_trip", "Verif.Broker.long_name_refused", "Verif.Broker.utf8_iff"], ""),
 "C44": (H, ["Verif.Broker.netlink_result_partial", "Verif.Broker.result_reported", "Verif.Broker.parseResponse_exact", "Verif.Broker.missing_interface_never_reported", "Verif.Broker.missing_interface_is_internal_error", "Verif.Broker.removed_peer_reported_as_success", "Verif.Broker.only_first_answer_seen", "Verif.Broker.result_of_first_key_only", "Verif.Broker.invalid_answer_is_error"], "Proved: answers carry the result code exactly, and the netlink broker's success means the key was set provided the peer exists when the device is changed. False of the code: a missing interface is never reported as such, a peer removed in between is reported as success, and a client that has read one answer never sees another one (all proved)."),
 "C45": (P, ["Verif.Broker.malformed_requests_refused", "Verif.Broker.wrong_type_refused", "Verif.Broker.wrong_length_refused"], ""),
 "C74": (P, ["Verif.Broker.keys_set_in_order", "Verif.Broker.set_psk_never_panics"], ""),
 "C75": (P, ["Verif.Broker.answers_go_to_their_client"], "Messages are atomic in this model; the byte streams are treated in C74 and C77."),
 "C76": (H, ["Verif.Broker.all_clients_answered_partial", "Verif.Broker.handler_comes_to_rest", "Verif.Broker.silent_for_ever", "Verif.Broker.bad_message_blocks_everyone", "Verif.Broker.at_most_100_waiting"], "False of the code: the broker process does not answer a malformed request, and the handler then waits for ever (proved). Proved for well-formed requests; the handler always comes to rest."),
 "C77": (P, ["Verif.Broker.privileged_in_order", "Verif.Broker.serve_incomplete", "Verif.Broker.oversized_ends_process"], ""),
 "C53": (H, ["Verif.Config.parse_args_no_panic", "Verif.Config.documented_lines_accepted_partial", "Verif.Config.accepted_only", "Verif.Config.psk_and_endpoint_refused", "Verif.Config.dangling_option_accepted"], "Proved: no panic on any argument list; every documented line in which no peer has both an endpoint and a pre-shared key is accepted with its meaning; nothing else is accepted, except that a last option without its value is ignored. False of the code: a pre-shared key is entered under the name of the endpoint option, so a line with both is always refused (proved). Name resolution is a parameter."),
 "C54": (P, ["Verif.Config.validate_exact"], "Exact characterisation; the file system and the resolver are parameters (Probe)."),
 "C55": (H, ["Verif.Rp.parse_exact", "Verif.Rp.one_command_partial", "Verif.Rp.help_replaces_command"], "Exact characterisation of accepted lines and their meaning: the last of repeated options wins. False of the code for the rule of one command per line: `help` silently replaces a command given before it (proved); proved for every line whose result is not help. Address parsing is a parameter."),
 "C56": (H, ["Verif.KeyGen.gen_keys_keeps_existing", "Verif.KeyGen.gen_keys_success_partial", "Verif.KeyGen.gen_keys_succeeds", "Verif.KeyGen.forced_rerun_completes", "Verif.KeyGen.complete_files_match", "Verif.KeyGen.gen_config_keeps_existing", "Verif.KeyGen.rp_genkey_keeps_existing", "Verif.KeyGen.rp_genkey_success_partial", "Verif.KeyGen.rp_genkey_succeeds", "Verif.KeyGen.killed_run_blocks_reruns", "Verif.KeyGen.same_path_loses_secret", "Verif.KeyGen.forced_run_leaves_mixed_pair", "Verif.KeyGen.keygen_overwrites", "Verif.KeyGen.rp_existing_directory_refused", "Verif.KeyGen.rp_reruns_refused", "Verif.KeyGen.rp_public_without_secret"], "False of the code in several ways, each proved: a killed run blocks all later runs without --force, equal paths for both keys lose the secret key, a forced run killed half way leaves a mixed pair, the deprecated keygen overwrites, `rp genkey` refuses every directory that exists and a failed run leaves public material without a secret. Proved: no unforced run changes an existing file, a run that reports success has written a matching pair, and a complete run succeeds."),
 "C78": (P, ["Verif.KeyGen.pubkey_exports", "Verif.KeyGen.pubkey_frame", "Verif.KeyGen.genkey_then_pubkey", "Verif.KeyGen.pubkey_cannot_be_repeated"], "X25519 and base64 are parameters; pubkey_cannot_be_repeated is a consequence worth knowing: once a run has created the directory, successful or not, every later run is refused."),
 "C79": (H, ["Verif.Startup.startup_exact", "Verif.Startup.validated_starts_partial", "Verif.Startup.validated_not_started", "Verif.Startup.supply_after_startup"], "Proved: exactly which configurations start, and what then runs. False of the code: validation looks neither at the pre-shared key files, nor at the form of the WireGuard peer, nor for duplicate peers, so validated configurations may fail to start; and without a key pair duplicates are accepted at the start, and then the first supplied key pair destroys the server (all proved)."),
 "C80": (P, ["Verif.Startup.listens_as_configured"], ""),
 "C59": (H, ["Verif.Janitor.jobs_awaited_partial", "Verif.Janitor.scope_returns", "Verif.Janitor.jobs_cannot_spawn_jobs", "Verif.Janitor.failed_job_ends_scope", "Verif.Janitor.has_active_janitor_inverted"], "Proved for every schedule of callee, jobs, agent and watchers: the scope reports success only after the callee and every submitted job have ended without error, and it can always return once they have. False of the code: once a job fails the scope returns while other jobs still run; a job submitted after that is refused although it has already been started; jobs cannot submit jobs; has_active_janitor answers the opposite (all proved). Not modelled: cancelling the scope's future, shutting down the runtime."),
 "C57": (P, ["Verif.SecretMem.new_secret_is_zero", "Verif.SecretMem.no_secret_bytes_left"], "For any number of threads; pools may be destroyed or borrowed at any moment. Copies in registers and on the stack are not modelled."),
 "C81": (P, ["Verif.SecretMem.secrets_behave_as_values"], ""),
 "C82": (P, ["Verif.SecretMem.memory_is_sound", "Verif.SecretMem.policy_stays", "Verif.SecretMem.threads_leave_nothing"], "Memory accesses that would be undefined behaviour are explicit in the model (fault)."),
 "C83": (H, ["Verif.NativeUnix.key_set_through_wg_partial", "Verif.NativeUnix.key_not_on_command_line", "Verif.NativeUnix.ok_iff_started", "Verif.NativeUnix.failure_of_wg_not_reported"], "Proved: the command, its input, and that its arguments do not depend on the key. False of the code: success only means that wg was started; whether it gets and accepts the key makes no difference to the result (proved)."),
 "C84": (H, ["Verif.NativeUnix.params_round_trip", "Verif.NativeUnix.trailing_bytes_ignored", "Verif.NativeUnix.peer_id_round_trip", "Verif.NativeUnix.peer_id_accepts_partial", "Verif.NativeUnix.truncated_peer_id_accepted", "Verif.NativeUnix.empty_params_refused"], "Proved: both round trips, for all parameters and peer ids, and exactly what is accepted as a peer id. False of the code: truncated peer ids are accepted and filled up with zeros (proved). postcard's format is modelled, not its code."),
 "C85": (H, ["Verif.RpDevice.only_own_device_touched", "Verif.RpDevice.device_configured", "Verif.RpDevice.existing_device_refused", "Verif.RpDevice.device_removed_partial", "Verif.RpDevice.failed_up_leaves_device"], "Proved for every interleaving with other processes that leave this device alone. Removal is proved once the device was brought up, if the kernel grants it and no panic shuts the runtime down. False of the code otherwise: if bringing the device up fails it stays behind, and all later starts are refused (proved)."),
 "C86": (H, ["Verif.LengthPrefix.encoder_calls_safe_partial", "Verif.LengthPrefix.positioning_exact", "Verif.LengthPrefix.too_long_message_reported", "Verif.LengthPrefix.constructors_exact", "Verif.LengthPrefix.encoder_views", "Verif.LengthPrefix.decoder_calls_safe", "Verif.LengthPrefix.offset_overflow", "Verif.LengthPrefix.advance_past_message"], "Proved for every history of public calls of the encoder whose offset sums fit into 64 bits, and for every history of reads and clears of the decoder. Missing, because false of the code: set_message_offset near 2^64 overflows (panic, or accepted as the start of the frame: offset_overflow), and the decoder's advance does not check the step that completes the header against the length in it (advance_past_message)."),
 "C87": (H, ["Verif.RpExchange.exchange_exact_partial", "Verif.RpExchange.no_keys_nothing_done", "Verif.RpExchange.wg_command", "Verif.RpExchange.wg_ports_agree", "Verif.RpExchange.ip_failures_ignored", "Verif.RpExchange.port_65535_panics", "Verif.RpExchange.port_65535_wraps", "Verif.RpExchange.scope_dropped"], "Proved: exactly when rp exchange gets as far as running the server, what it has then done to the system, which peers run and how WireGuard is told of them; on failure it has done a prefix of the same plan. Missing, because false of the code: failures of the ip command are not noticed; port 65535 overflows (panic, or port 0); the scope of a link-local IPv6 endpoint does not reach WireGuard. SocketAddr's Display and name resolution are parameters."),
 "C88": (P, ["Verif.App.peer_address_changes", "Verif.App.datagram_recipient", "Verif.App.due_message_sent", "Verif.App.addresses_known", "Verif.App.unprompted_datagrams"], ""),
 "C89": (P, ["Verif.App.loop_ends_on_signal"], ""),
 "C90": (H, ["Verif.Api.supply_status", "Verif.Api.listen_status", "Verif.Api.broker_status_partial", "Verif.Api.first_broker_refused", "Verif.Api.failed_replacement_loses_broker"], "Proved: the exact answer and effect of every supply-keypair and add-listen-socket request, and of add-psk-broker when a broker is registered and registration works. False of the code: without any registered broker add-psk-broker panics (overflow checks) or is refused, and when the new broker cannot be registered the old one is lost although an error is reported (both proved)."),
 "C91": (H, ["Verif.Api.Mgr.events_before_first_close_partial", "Verif.Api.Mgr.connection_after_close_panics", "Verif.Api.Mgr.oversized_request_then_reconnect_panics"], "Proved as long as no connection was closed. False of the code afterwards: a client that connects after the only connection was closed makes the daemon panic with its first event (proved, also as a full history from the start)."),
 "C92": (P, ["Verif.Sym.initiator_security", "Verif.Sym.responder_security", "Verif.Sym.initiator_confirmation", "Verif.Sym.honest_exchange", "Verif.Sym.initiation_link", "Verif.Sym.ihr_link", "Verif.Sym.rhr_link", "Verif.Sym.rhi_link", "Verif.Sym.icr_link", "Verif.Sym.ack_link"], "Proved in a symbolic (Dolev-Yao) model of the handshake with unbounded servers, sessions and attacker. The *_link theorems show that this model computes what the model over bytes computes, for all lawful primitives. Not claimed: that real primitives are ideal (computational soundness)."),
 "C93": (P, ["Verif.Sym.initiator_key_known_iff", "Verif.Sym.initiator_security", "Verif.Sym.responder_security", "Verif.Sym.osk_link"], "As C92: symbolic model, ideal cryptography, an exact characterisation. The compromise of a responder's biscuit key, while the biscuit was recorded, reveals the key of the session without any other secret (shown by an example): the biscuit key is part of the ephemeral secrets and must be erased (C27)."),
 "C94": (P, ["Verif.Sym.initiator_keys_fresh", "Verif.Sym.responder_keys_fresh", "Verif.Sym.cross_keys_fresh"], "As C92: symbolic model, ideal cryptography."),
 "C95": (H, ["Verif.Aead.buffers_partial", "Verif.Aead.encrypt_refused", "Verif.Aead.encrypt_cases", "Verif.Aead.decrypt_cases", "Verif.Aead.encryptN_cases", "Verif.Aead.decryptN_cases", "Verif.Aead.round_trip", "Verif.Aead.round_tripN", "Verif.Aead.fn_lawful", "Verif.Aead.xSeal_link", "Verif.Aead.xOpen_link", "Verif.Aead.long_buffer_panics"],
   "False of the code as stated: a ciphertext buffer that is too long (or a plaintext buffer that is too short) panics in copy_from_slice instead of returning InvalidLengths (long_buffer_panics). Everything else is proved for every buffer length. fn_lawful, xSeal_link and xOpen_link discharge the AEAD part of Crypto.Lawful, for messages within the crate's length limit, and tie the calls to the protocol model; the crate's detached in-place AEAD is the parameter."),
 "C96": (P, ["Verif.Serialization.serde_round_trip", "Verif.Serialization.serde_accepts", "Verif.Serialization.serde_length", "Verif.Serialization.serialize_injective"],
   "The base64 crate is specified (RFC 4648, canonical), not modelled; serde data formats are outside the model."),
 'C97': (P, ['Verif.App.daemons_agree', 'Verif.App.Ready.step'],
   'Both daemons not under load (under load see C12), I/O of the rounds that put out the key succeeds (otherwise see C70), and the hypotheses of C01 about unused session ids and the V02 ambiguity. An example plays a whole exchange and checks every hypothesis.'),
 'C98': (P, ['Verif.Typenum.conversion_exact', 'Verif.Typenum.conversion_modular', 'Verif.Typenum.too_large_wraps'],
   "The compiler's constant evaluation is modelled by checked bit-vector arithmetic; `<<` drops bits silently, `+` and unary minus refuse to compile on overflow. Type resolution itself is not modelled."),
 'C99': (P, ['Verif.completes_despite_loss'],
   ''),
 'C100': (P, ['Verif.cookie_vouches_once', 'Verif.seal_vouches_once', 'Verif.cookie_reply_for_one_message'],
   'Reductions: no assumption about the hash or the AEAD; the colliding computations are listed explicitly.'),
 'C101': (P, ['Verif.SecretAlloc.allocate_exact', 'Verif.SecretAlloc.allocate_succeeds_for_types', 'Verif.SecretAlloc.allocate_refuses', 'Verif.SecretAlloc.boxes_sound'],
   'memsec is outside /repo: an environment that places each block before the end of a page.'),
 'C102': (P, ['Verif.RefMaker.views_exact', 'Verif.RefMaker.views_read', 'Verif.RefMaker.splits_exact', 'Verif.RefMaker.zeroized_view', 'Verif.RefMaker.zeroized_failure', 'Verif.RefMaker.emancipate_same'],
   '`Ref::from_bytes` of the zerocopy crate is modelled by its contract.'),
 'C103': (P, ['Verif.ToCrate.styles_agree', 'Verif.ToCrate.condense_exact', 'Verif.ToCrate.collect_copies', 'Verif.ToCrate.collect_vec_panics'],
   ''),
 'C104': (H, ['Verif.Api.Mgr.slot_freed_iff_partial', 'Verif.Api.Mgr.hung_up_connections_kept', 'Verif.Api.Mgr.connections_grow'],
   'False of the code. Proved: the exact condition under which a slot is given back (refused input, all output sent); counterexample for every number of clients and polls.'),
 'C105': (P, ['Verif.respHello_starts_one_session'],
   ''),
 'C106': (P, ['Verif.completes_under_load'],
   'Hypotheses as for C99 (random ids unused, the biscuit opens under one hash function).'),
 'C107': (P, ['Verif.Fds.Proc.claim_fd_exact', 'Verif.Fds.Proc.claim_fd_inplace_exact', 'Verif.Fds.Proc.claim_negative', 'Verif.Fds.Proc.second_claim_gets_null', 'Verif.Fds.Proc.no_descriptor_leaks'],
   "The kernel's table of descriptors is modelled (lowest free number, dup3, F_DUPFD_CLOEXEC); calls of other threads in between are not."),
 'C108': (H, ['Verif.Fds.api_sockets_exact_partial', 'Verif.Fds.api_sockets_set_up', 'Verif.Fds.pipe_accepted_as_listener', 'Verif.Fds.own_listener_taken_as_connection', 'Verif.Fds.minus_one_panics'],
   'Proved for distinct numbers that are open at the start. False as stated: what is given for a listener is not checked (a pipe is accepted), a number that was not given is taken if the server has meanwhile opened it itself, and -1 panics.'),
 'C109': (H, ['Verif.Broker.flush_blocking_partial', 'Verif.Broker.flush_stays_nonblocking', 'Verif.Broker.flush_spins', 'Verif.Broker.blocking_writes_bounded'],
   'The rest is written in order before the call returns without an error. False: O_NONBLOCK is set (not cleared) with F_SETFD, which concerns other flags, so the socket stays non-blocking and the loop calls write over and over; blocking_writes_bounded says what blocking mode would give.'),
 'C110': (H, ['Verif.Sym.observer_blind_partial', 'Verif.Sym.insider_tells', 'Verif.Sym.knows_iff_computes', 'Verif.Sym.Follows.valid', 'Verif.hello_shows_responder', 'Verif.answer_shows_receiver'],
   "False of the messages as sent: the seal in the envelope of every message is a hash under the receiver's public key, so that whoever knows that key sees whether it is the receiver; InitHello shows the responder and RespHello the initiator (hello_shows_responder, answer_shows_receiver). True of the payloads (observer_blind_partial): static equivalence in the symbolic model, for observers. insider_tells: the hypothesis that the responder's static key is hidden is needed. Missing: active attackers; the symbolic model assumes that ciphertexts (in particular of the static KEM) hide the key they were made with."),
 'C111': (P, ['Verif.counter_ahead', 'Verif.exchange_after_any_history', 'Verif.answers_are_sent'],
   'Reduction to an explicit forgery (ForgedConf).'),
 'C112': (P, ['Verif.App.daemons_agree_despite_loss'],
   "Composition of C99 (servers, any histories of calls) with the rounds of the event loop. Hypotheses as in C97/C99: session ids drawn are unused, the responder's last accepted biscuit is older than the next one (C111), under the old protocol version the InitHello/InitConf does not open under the other hash function."),
 'C113': (H, ['Verif.Cli.exit_status_partial', 'Verif.Cli.keygenArgs_named', 'Verif.Cli.validate_exits_zero', 'Verif.Cli.panics_only_on_arguments'],
   'Proved: the status is 0 or 1, status 0 implies success for every command but validate; the verdicts printed by validate are exact; only the arguments of `exchange` can cause a panic. False of the code for validate: it exits with 0 even if every file is missing or broken (validate_exits_zero).'),
 'C114': (P, ['Verif.Cli.serves_as_told', 'Verif.Cli.serves_if_startable', 'Verif.Cli.exchange_exact'],
   "clap's parsing of flags and TOML are parameters of the model."),
 'C115': (H, ['Verif.Cli.tilde_means', 'Verif.Cli.tilde_no_home', 'Verif.Cli.load_means_partial', 'Verif.Cli.api_path_literal'],
   'Proved for the key pair and for public key, pre-shared key and output file of every peer. False for the API socket paths, which are taken literally (api_path_literal).'),
 'C116': (H, ['Verif.Cli.saved_restarts_partial', 'Verif.ConfigToml.saved_restarts_toml_partial', 'Verif.Cli.saved_tilde_differs'],
   'Proved if TOML text round-trips and no path begins with `~/`. False otherwise: a path `~/…` is literal among the arguments and expanded in the file (saved_tilde_differs).'),
 'C117': (H, ['Verif.Cli.files_kept_partial', 'Verif.Cli.exchange_replaces', 'Verif.KeyGen.keygen_overwrites'],
   'Proved for all commands except the deprecated keygen and exchange --config-file, which replace files silently (counterexamples proved). The key output files of a running daemon are outside this claim.'),
 'C118': (H, ['Verif.Cli.log_level_partial', 'Verif.Cli.log_level_flags'],
   'False of the code: --verbose sets info and --quiet sets warn (log_level_flags). --log-level and the default are right.'),
 'C119': (H, ['Verif.RpMain.rp_files_kept_partial', 'Verif.RpMain.rp_exit_status', 'Verif.RpMain.rp_panics_partial', 'Verif.RpMain.rp_empty_dir_overwrites', 'Verif.RpMain.rp_dirs_kept', 'Verif.RpMain.rp_not_repeatable'],
   'The exit status is proved in full. False of the code: `rp pubkey DIR ""` replaces wgpk and pqpk in the working directory (rp_empty_dir_overwrites); a missing or unparsable exchange-config file panics, and so does port 65535 in a debug build (rp_panics_partial: nothing else does).'),
 'C120': (P, ['Verif.RpMain.rp_keys_prepared', 'Verif.RpMain.rp_hosts_linked', 'Verif.RpMain.rp_hosts_stay_linked'],
   'The hypotheses of C97 and C112 on the registration are the conclusion here, so those theorems apply to daemons started by rp at any later time.'),
 'C121': (H, ['Verif.LengthPrefix.cleared_decoder_blank', 'Verif.LengthPrefix.zeroized_encoder_blank', 'Verif.LengthPrefix.cleared_encoder_keeps_bytes', 'Verif.Api.connection_buffers_hold_current_only_partial', 'Verif.Broker.broker_client_keeps_key'],
   'Proved for the API connection (while no poll failed), for clear of the decoder and zeroize of the encoder. False of the code for clear of the encoder, which keeps the bytes (cleared_encoder_keeps_bytes), and for the broker client, whose write buffer keeps the key after it is on the wire (broker_client_keeps_key).'),
 'C122': (P, ['Verif.Dbg.debug_text_secret_free', 'Verif.Dbg.broker_config_text_secret_free'],
   ''),
 'C123': (H, ['Verif.Dbg.debug_text_of_public_exact_partial', 'Verif.Dbg.debug_text_of_public_ambiguous', 'Verif.Dbg.debug_text_of_public_short', 'Verif.Dbg.debug_text_of_public_ends'],
   'False of the code: bytes are printed without leading zeros (debug_text_of_public_ambiguous). True of values of at most 64 bytes in which no byte is below 16.'),
 'C124': (P, ['Verif.CtCode.compare_constant_time', 'Verif.CtCode.memcmp_constant_time', 'Verif.CtCode.increment_constant_time', 'Verif.CtCode.xor_constant_time', 'Verif.CtCode.blind_alike', 'Verif.CtCode.compare_code', 'Verif.CtCode.memcmp_code', 'Verif.CtCode.increment_code', 'Verif.CtCode.xor_code', 'Verif.CtCode.early_exit_not_constant_time'],
   'The code is written in a small imperative language with an observation semantics. Assumed: arithmetic instructions take constant time and the compiler keeps the code branch-free (what black_box and read_volatile are for); memsec::memeq is as documented.'),
 'C125': (P, ['Verif.F64.clock_mono', 'Verif.F64.never_younger', 'Verif.F64.session_accurate', 'Verif.F64.store_accurate', 'Verif.F64.plain_accurate', 'Verif.F64.ancient_void', 'Verif.F64.session_ticks', 'Verif.F64.biscuit_ticks', 'Verif.F64.cookie_ticks', 'Verif.F64.fl_error'],
   'Numbers with 53 significant bits and unbounded exponents; any monotone rounding that keeps representable numbers (Rounding.ofNearest: rounding to nearest is one; Rounding.nearest exists). session_ticks, biscuit_ticks and cookie_ticks show that the integer clock of the other models gives the same life cycles but for 200 microseconds around the changes.'),
 'C126': (P, ['Verif.renewal_for_ever', 'Verif.link_renews', 'Verif.rest_silent', 'Verif.rest_request', 'Verif.rest_run', 'Verif.rest_key'],
   'The calls in between must not disturb the handshake (no further initiation with that peer, no authentic message of it other than those of the run, no expiry); session ids drawn are fresh and the biscuit counter is ahead (C111). A side whose first request was ignored because it knows no address of the peer keeps its request flag and never asks again (C19): then only the other side renews, which the flags fa and fb of the specification express.'),
 'C127': (H, ['Verif.handshakes_cross', 'Verif.crossing_for_ever', 'Verif.crossed_keys_differ', 'Verif.crossing_heals_partial', 'Verif.overtaking_agrees_partial'],
   'The full claim is false of the code; crossed_keys_differ is the counterexample (both protocol versions), handshakes_cross and crossing_for_ever show that it is systematic. The true part is crossing_heals_partial and overtaking_agrees_partial.'),
 'C128': (H, ['Verif.BrokerSpawn.handler_connected', 'Verif.BrokerSpawn.handler_never_sees_end', 'Verif.BrokerSpawn.privileged_inherits', 'Verif.BrokerSpawn.daemon_notices_partial', 'Verif.BrokerSpawn.flag_suffices'],
   'The full claim is false of the code (handler_never_sees_end); flag_suffices shows that only the flag is missing. Of descriptors the model has number, open file, close-on-exec flag and whether Rust code owns it; dup2, fork, execve and socketpair are modelled after their manual pages, command-fds after its source.'),
 'C129': (H, ['Verif.Broker.nothing_done_after_end', 'Verif.Broker.only_due_answers_after_end', 'Verif.Broker.nobody_waits_after_end', 'Verif.Broker.clients_learn_of_end', 'Verif.Broker.handler_rests', 'Verif.Broker.stream_handler_ends_partial', 'Verif.Broker.listening_handler_stays'],
   'False of the code for a listening handler (listening_handler_stays). The semantics of tokio used: a panic ends the task, dropping its ends of the channels; a panic or an error in main ends the process. Messages are atomic.'),
 'C130': (P, ['Verif.Device.devices_agree', 'Verif.Device.device_holds_last_key', 'Verif.Device.device_others_kept', 'Verif.Device.device_peers_kept'],
   'Assumes that the calls of set_psk reported success and that all bytes were written: by C74 the last request stays in the write buffer of the client until it is polled again. Also that netlink works (getFails, setFails), that nobody else changes the keys, and that the peer exists in the device (C44 shows what happens otherwise).'),
 'C131': (P, ['Verif.initiates_as_in_paper', 'Verif.answers_init_hello_as_in_paper', 'Verif.accepts_resp_hello_as_in_paper', 'Verif.accepts_init_conf_as_in_paper'],
   "The specification (Model/Paper.lean) is a transcription of the paper and uses no definition of the model of the code but the primitives. Where the paper contradicts itself the reading that the code follows was taken: the labels of the transmission keys are those of the table of labels ('initiator/responder handshake encryption'; the pseudo-code of enter_live says 'payload'), and the order of auth and biscuit_ct is that of the figure of the message types. The paper raises the biscuit number before use, the code after it; only the first number differs. The contents of the cookie field are not covered here."),
 'C132': (P, ['Verif.paper_initiator_interoperates', 'Verif.paper_responder_interoperates'],
   'Same reading of the paper as C131. For protocol version V02 the messages must not also be valid under the other hash function (HelloUnambiguous, ConfUnambiguous; vacuous for V03), and the InitConf must not be one that is cached already. The KEMs do not fail (KemTotal).'),
 'C133': (H, ['Verif.under_load_as_in_paper_partial', 'Verif.cookie_used_as_in_paper_partial', 'Verif.paper_cookie_reply_refused', 'Verif.first_cookie_random', 'Verif.first_cookie_not_zero'],
   "Missing because false of the code, shown by paper_cookie_reply_refused and first_cookie_not_zero: the code pads its CookieReply to the size of an InitHello envelope and refuses one of the 64 bytes of the paper's figure; the cookie field of a first InitHello is not zero but the MAC under a random value (first_cookie_random). Also, a stored cookie value does not expire in the code when its message is sealed; handshakes end after 120 s (C18)."),
 'C134': (H, ['Verif.App.published_key_is_current_partial', 'Verif.App.tampered_message_hides_key'],
   'False of the code: an InitConf whose seal was broken on the way installs the session in the server, the message is refused, so no key is put out, and the genuine InitConf is refused afterwards as a replay (tampered_message_hides_key; cf. C07). Proved part: any number of rounds in which the I/O works (cf. C70), destinations of different peers are different, and no RespHello or InitConf that is authentic but has a broken seal or colliding session id is delivered.'),
 'C135': (P, ['Verif.realCrypto_lawful', 'Verif.ChaCha.detached_lawful', 'Verif.ChaCha.xDetached_lawful', 'Verif.ChaCha.dec_some', 'Verif.ChaCha.detached_fnEnc', 'Verif.ChaCha.detached_fnDec', 'Verif.ChaCha.xDetached_fnEnc', 'Verif.ChaCha.xDetached_fnDec'],
   'The crates that implement the standards are not in the repository; the standards are written down in Lean and checked against their published known answers. With realCrypto_lawful, every theorem that assumes Crypto.Lawful holds for these primitives as soon as the two KEMs (liboqs) have their documented sizes and the ephemeral KEM is correct.'),
 'C136': (P, ['Verif.GenIpc.api_types_are_generated', 'Verif.GenIpc.api_type_is_hash', 'Verif.GenIpc.shake_types_unused', 'Verif.GenIpc.gen_eq'],
   'The whole domain is eight constants; the hash values are computed by the kernel from the definition of BLAKE2b. gen_eq holds for every hash function.'),
 'C137': (P, ['Verif.HashDomain.domains_distinct', 'Verif.HashDomain.domains_fresh', 'Verif.HashDomain.dom_value'],
   "dom_value gives the 28 values; the table comes from another implementation of the hash functions (Python's hashlib) and the kernel checks that the model's hash functions give the same."),
 'C138': (H, ['Verif.ConfigToml.read_whole_partial', 'Verif.ConfigToml.unknown_rejected', 'Verif.ConfigToml.rp_read_whole_partial', 'Verif.ConfigToml.half_wireguard_ignored', 'Verif.ConfigToml.half_keypair_ignored'],
   'False of the code: a WireGuard section of a peer that is not complete (a device without a peer, or a value of the wrong kind) and a key pair that is not complete count for nothing, silently (half_wireguard_ignored, half_keypair_ignored; the second is a TODO in config.rs). Proved part: everything else, for all documents. Elements after the expected ones of a section given as an array are not looked at. TOML text is not modelled: a file is a TOML value.'),
 'C139': (P, ['Verif.ConfigToml.read_back', 'Verif.ConfigToml.file_read_back', 'Verif.ConfigToml.ser_once'],
   "Assumes that the TOML text of a value is read as the same value up to the order of entries, that the listen addresses survive SocketAddr's to_string and from_str, and that file descriptors are 32-bit numbers."),
 'C140': (H, ['Verif.Device.device_key_is_current_partial', 'Verif.Device.tampered_message_keeps_old_device_key'],
   "False of the code for the reason of C134: after a refused authentic message the responder's server holds a key that the daemon never puts out, so the device keeps the old one. Proved part: all runs without such a message, where I/O works. The daemon puts random keys out when it erases a key; it is the freshly drawn one of that round."),
 'C141': (H, ['Verif.App.daemon_leaves_alone', 'Verif.App.daemon_renews_partial', 'Verif.App.daemon_sends_renewal_partial', 'Verif.App.responder_never_renews'],
   'False of the code: a daemon without a configured address for the peer is asked to start a handshake in its first round, does nothing, and since the request is remembered as made it never asks again, although it learns the address in the exchange (responder_never_renews: the key then expires at 180 s, unless the initiator renews it). Proved part: every daemon of whose protocol server no request for that peer was left undone. With C97 and C112 the handshake it starts leads to the same new key on both sides.'),
}
