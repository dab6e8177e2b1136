Verif.key_agreement Verif.Thm.KeyAgreement propext Classical.choice Quot.sound
Verif.key_agreement_interleaved Verif.Thm.KeyAgreement propext Classical.choice Quot.sound
Verif.accepted_biscuits_increase Verif.Thm.Replay propext Classical.choice Quot.sound
Verif.recorded_conf_not_accepted_again Verif.Thm.Replay propext Classical.choice Quot.sound
Verif.retransmitted_conf_idempotent Verif.Thm.Replay propext Classical.choice Quot.sound
Verif.issued_biscuits_increase Verif.Thm.Replay propext Classical.choice Quot.sound
Verif.exchange_authenticated Verif.Thm.Messages propext Classical.choice Quot.sound
Verif.peer_isolation Verif.Thm.Effects propext Classical.choice Quot.sound
Verif.changed_peer_was_addressed Verif.Thm.Effects propext Classical.choice Quot.sound
Verif.rejected_no_effect_partial Verif.Thm.Effects propext Classical.choice Quot.sound
Verif.rejected_not_without_effect Verif.Thm.Effects propext Quot.sound
Verif.rejected_other_effects Verif.Thm.Effects propext Quot.sound
Verif.unsealed_rejected Verif.Thm.Messages propext Classical.choice Quot.sound
Verif.handleMsg_ok_sealed Verif.Thm.Messages propext Classical.choice Quot.sound
Verif.network_input_never_panics Verif.Thm.Total propext Classical.choice Quot.sound
Verif.malformed_rejected Verif.Thm.Total propext Quot.sound
Verif.timers_never_panic Verif.Thm.Total propext Classical.choice Quot.sound
Verif.reply_size Verif.Thm.Load propext Classical.choice Quot.sound
Verif.reply_amplification Verif.Thm.Load propext Classical.choice Quot.sound
Verif.cookie_vouches_once Verif.Thm.CookieBind propext Classical.choice Quot.sound
Verif.seal_vouches_once Verif.Thm.CookieBind propext Classical.choice Quot.sound
Verif.cookie_reply_for_one_message Verif.Thm.CookieBind propext Classical.choice Quot.sound
Verif.SecretAlloc.allocate_exact Verif.Thm.SecretAlloc propext Classical.choice Quot.sound
Verif.SecretAlloc.allocate_succeeds_for_types Verif.Thm.SecretAlloc propext Quot.sound
Verif.SecretAlloc.allocate_refuses Verif.Thm.SecretAlloc propext Quot.sound
Verif.SecretAlloc.boxes_sound Verif.Thm.SecretAlloc propext Classical.choice Quot.sound
Verif.RefMaker.views_exact Verif.Thm.RefMaker propext Quot.sound
Verif.RefMaker.views_read Verif.Thm.RefMaker propext Quot.sound
Verif.RefMaker.splits_exact Verif.Thm.RefMaker propext Classical.choice Quot.sound
Verif.RefMaker.zeroized_view Verif.Thm.RefMaker propext Quot.sound
Verif.RefMaker.zeroized_failure Verif.Thm.RefMaker propext Quot.sound
Verif.RefMaker.emancipate_same Verif.Thm.RefMaker propext Quot.sound
Verif.ToCrate.styles_agree Verif.Thm.To 
Verif.ToCrate.condense_exact Verif.Thm.To 
Verif.ToCrate.collect_copies Verif.Thm.To propext Quot.sound
Verif.ToCrate.collect_vec_panics Verif.Thm.To propext Quot.sound
Verif.Api.Mgr.slot_freed_iff_partial Verif.Thm.ApiLeak propext Quot.sound
Verif.Api.Mgr.hung_up_connections_kept Verif.Thm.ApiLeak propext Classical.choice Quot.sound
Verif.Api.Mgr.connections_grow Verif.Thm.ApiLeak propext Classical.choice Quot.sound
Verif.respHello_starts_one_session Verif.Thm.RespOnce propext Classical.choice Quot.sound
Verif.completes_under_load Verif.Thm.UnderLoad propext Classical.choice Quot.sound
Verif.Fds.Proc.claim_fd_exact Verif.Thm.Fds propext Classical.choice Quot.sound
Verif.Fds.Proc.claim_fd_inplace_exact Verif.Thm.Fds propext Classical.choice Quot.sound
Verif.Fds.Proc.claim_negative Verif.Thm.Fds propext
Verif.Fds.Proc.second_claim_gets_null Verif.Thm.Fds propext Classical.choice Quot.sound
Verif.Fds.Proc.no_descriptor_leaks Verif.Thm.Fds propext Classical.choice Quot.sound
Verif.Fds.api_sockets_exact_partial Verif.Thm.FdsApi propext Classical.choice Quot.sound
Verif.Fds.api_sockets_set_up Verif.Thm.FdsApi propext Classical.choice Quot.sound
Verif.Fds.pipe_accepted_as_listener Verif.Thm.FdsApi propext Quot.sound
Verif.Fds.own_listener_taken_as_connection Verif.Thm.FdsApi propext
Verif.Fds.minus_one_panics Verif.Thm.FdsApi propext
Verif.Broker.flush_blocking_partial Verif.Thm.BrokerFlush propext Classical.choice Quot.sound
Verif.Broker.flush_stays_nonblocking Verif.Thm.BrokerFlush propext Quot.sound
Verif.Broker.flush_spins Verif.Thm.BrokerFlush propext Classical.choice Quot.sound
Verif.Broker.blocking_writes_bounded Verif.Thm.BrokerFlush propext Classical.choice Quot.sound
Verif.under_load_gate Verif.Thm.Load propext Classical.choice Quot.sound
Verif.Sym.observer_blind_partial Verif.Thm.Anonymity propext Classical.choice Quot.sound
Verif.Sym.insider_tells Verif.Thm.AnonymityEx propext
Verif.Sym.knows_iff_computes Verif.Thm.AnonymityEx propext Quot.sound
Verif.Sym.Follows.valid Verif.Thm.AnonymityEx propext
Verif.hello_shows_responder Verif.Thm.Envelope propext Classical.choice Quot.sound
Verif.answer_shows_receiver Verif.Thm.Envelope propext Classical.choice Quot.sound
Verif.counter_ahead Verif.Thm.Counter propext Classical.choice Quot.sound
Verif.exchange_after_any_history Verif.Thm.Counter propext Classical.choice Quot.sound
Verif.answers_are_sent Verif.Thm.Counter propext Classical.choice Quot.sound
Verif.App.daemons_agree_despite_loss Verif.Thm.Daemons propext Classical.choice Quot.sound
Verif.Cli.exit_status_partial Verif.Thm.CliRun propext Classical.choice Quot.sound
Verif.Cli.keygenArgs_named Verif.Thm.CliRun propext Classical.choice Quot.sound
Verif.Cli.validate_exits_zero Verif.Thm.CliRun propext Classical.choice Quot.sound
Verif.Cli.panics_only_on_arguments Verif.Thm.CliRun propext Classical.choice Quot.sound
Verif.Cli.serves_as_told Verif.Thm.CliRun propext Classical.choice Quot.sound
Verif.Cli.serves_if_startable Verif.Thm.CliRun propext Classical.choice Quot.sound
Verif.Cli.exchange_exact Verif.Thm.CliRun propext Classical.choice Quot.sound
Verif.Cli.tilde_means Verif.Thm.Cli propext Classical.choice Quot.sound
Verif.Cli.tilde_no_home Verif.Thm.Cli propext Classical.choice Quot.sound
Verif.Cli.load_means_partial Verif.Thm.Cli propext Classical.choice Quot.sound
Verif.Cli.api_path_literal Verif.Thm.Cli propext Classical.choice Quot.sound
Verif.Cli.saved_restarts_partial Verif.Thm.CliRun propext Classical.choice Quot.sound
Verif.ConfigToml.saved_restarts_toml_partial Verif.Thm.ConfigTomlUse propext Classical.choice Quot.sound
Verif.Cli.saved_tilde_differs Verif.Thm.CliRun propext Classical.choice Quot.sound
Verif.Cli.files_kept_partial Verif.Thm.CliRun propext Classical.choice Quot.sound
Verif.Cli.exchange_replaces Verif.Thm.CliRun propext Classical.choice Quot.sound
Verif.KeyGen.keygen_overwrites Verif.Thm.KeyGen propext Classical.choice Quot.sound
Verif.Cli.log_level_partial Verif.Thm.CliRun 
Verif.Cli.log_level_flags Verif.Thm.CliRun 
Verif.RpMain.rp_files_kept_partial Verif.Thm.RpMain propext Classical.choice Quot.sound
Verif.RpMain.rp_exit_status Verif.Thm.RpMain propext Classical.choice Quot.sound
Verif.RpMain.rp_panics_partial Verif.Thm.RpMain propext Classical.choice Quot.sound
Verif.RpMain.rp_empty_dir_overwrites Verif.Thm.RpMainEx propext Classical.choice Quot.sound
Verif.RpMain.rp_dirs_kept Verif.Thm.RpMain propext Classical.choice Quot.sound
Verif.RpMain.rp_not_repeatable Verif.Thm.RpMain propext Classical.choice Quot.sound
Verif.cookie_liveness Verif.Thm.Secrets propext Classical.choice Quot.sound
Verif.initiate_pending Verif.Thm.Secrets propext Classical.choice Quot.sound
Verif.RpMain.rp_keys_prepared Verif.Thm.RpMain propext Classical.choice Quot.sound
Verif.RpMain.rp_hosts_linked Verif.Thm.RpMain propext Classical.choice Quot.sound
Verif.RpMain.rp_hosts_stay_linked Verif.Thm.RpMainLater propext Classical.choice Quot.sound
Verif.LengthPrefix.cleared_decoder_blank Verif.Thm.Blank propext Classical.choice Quot.sound
Verif.LengthPrefix.zeroized_encoder_blank Verif.Thm.Blank propext Quot.sound
Verif.LengthPrefix.cleared_encoder_keeps_bytes Verif.Thm.Blank propext Quot.sound
Verif.Api.connection_buffers_hold_current_only_partial Verif.Thm.Blank propext Classical.choice Quot.sound
Verif.Broker.broker_client_keeps_key Verif.Thm.Blank propext Classical.choice Quot.sound
Verif.Dbg.debug_text_secret_free Verif.Thm.Debug propext Classical.choice Quot.sound
Verif.Dbg.broker_config_text_secret_free Verif.Thm.Debug propext Classical.choice Quot.sound
Verif.Dbg.debug_text_of_public_exact_partial Verif.Thm.Debug propext Classical.choice Quot.sound
Verif.Dbg.debug_text_of_public_ambiguous Verif.Thm.Debug propext Classical.choice Quot.sound
Verif.Dbg.debug_text_of_public_short Verif.Thm.Debug propext Classical.choice Quot.sound
Verif.Dbg.debug_text_of_public_ends Verif.Thm.Debug propext Classical.choice Quot.sound
Verif.CtCode.compare_constant_time Verif.Thm.CtCode propext Quot.sound
Verif.CtCode.memcmp_constant_time Verif.Thm.CtCode propext Quot.sound
Verif.CtCode.increment_constant_time Verif.Thm.CtCode propext Quot.sound
Verif.CtCode.xor_constant_time Verif.Thm.CtCode propext Quot.sound
Verif.CtCode.blind_alike Verif.Thm.CtCode propext Quot.sound
Verif.CtCode.compare_code Verif.Thm.CtCode propext Quot.sound
Verif.CtCode.memcmp_code Verif.Thm.CtCode propext Classical.choice Quot.sound
Verif.CtCode.increment_code Verif.Thm.CtCode propext Quot.sound
Verif.CtCode.xor_code Verif.Thm.CtCode propext Quot.sound
Verif.CtCode.early_exit_not_constant_time Verif.Thm.CtCode propext Quot.sound
Verif.F64.clock_mono Verif.Thm.F64 propext Classical.choice Quot.sound
Verif.F64.never_younger Verif.Thm.F64 propext Classical.choice Quot.sound
Verif.F64.session_accurate Verif.Thm.F64 propext Classical.choice Quot.sound
Verif.F64.store_accurate Verif.Thm.F64 propext Classical.choice Quot.sound
Verif.F64.plain_accurate Verif.Thm.F64 propext Classical.choice Quot.sound
Verif.F64.ancient_void Verif.Thm.F64 propext Classical.choice Quot.sound
Verif.F64.session_ticks Verif.Thm.F64 propext Classical.choice Quot.sound
Verif.F64.biscuit_ticks Verif.Thm.F64 propext Classical.choice Quot.sound
Verif.F64.cookie_ticks Verif.Thm.F64 propext Classical.choice Quot.sound
Verif.F64.fl_error Verif.Thm.F64 propext Classical.choice Quot.sound
Verif.renewal_for_ever Verif.Thm.Renewal propext Classical.choice Quot.sound
Verif.link_renews Verif.Thm.Renewal propext Classical.choice Quot.sound
Verif.rest_silent Verif.Thm.Renewal propext Classical.choice Quot.sound
Verif.rest_request Verif.Thm.Renewal propext Classical.choice Quot.sound
Verif.rest_run Verif.Thm.Renewal propext Classical.choice Quot.sound
Verif.rest_key Verif.Thm.Renewal propext Quot.sound
Verif.handshakes_cross Verif.Thm.Crossed propext Classical.choice Quot.sound
Verif.crossing_for_ever Verif.Thm.Crossed propext Classical.choice Quot.sound
Verif.crossed_keys_differ Verif.Thm.Crossed propext Quot.sound
Verif.crossing_heals_partial Verif.Thm.Crossed propext Classical.choice Quot.sound
Verif.overtaking_agrees_partial Verif.Thm.Crossed propext Classical.choice Quot.sound
Verif.BrokerSpawn.handler_connected Verif.Thm.BrokerSpawn propext Classical.choice Quot.sound
Verif.BrokerSpawn.handler_never_sees_end Verif.Thm.BrokerSpawn propext Classical.choice Quot.sound
Verif.BrokerSpawn.privileged_inherits Verif.Thm.BrokerSpawn propext Classical.choice Quot.sound
Verif.BrokerSpawn.daemon_notices_partial Verif.Thm.BrokerSpawn propext Classical.choice Quot.sound
Verif.BrokerSpawn.flag_suffices Verif.Thm.BrokerSpawn propext Classical.choice Quot.sound
Verif.Broker.nothing_done_after_end Verif.Thm.BrokerHandler propext Classical.choice Quot.sound
Verif.Broker.only_due_answers_after_end Verif.Thm.BrokerHandler propext Classical.choice Quot.sound
Verif.Broker.nobody_waits_after_end Verif.Thm.BrokerHandler propext Classical.choice Quot.sound
Verif.Broker.clients_learn_of_end Verif.Thm.BrokerHandler propext Classical.choice Quot.sound
Verif.Broker.handler_rests Verif.Thm.BrokerHandler propext Classical.choice Quot.sound
Verif.Broker.stream_handler_ends_partial Verif.Thm.BrokerHandler propext Classical.choice Quot.sound
Verif.Broker.listening_handler_stays Verif.Thm.BrokerHandler propext Classical.choice Quot.sound
Verif.cookie_value_bound_to_host Verif.Thm.HashDomain propext Quot.sound
Verif.cookie_value_is_truncation Verif.Thm.HashDomain propext Quot.sound
Verif.Device.devices_agree Verif.Thm.Device propext Classical.choice Quot.sound
Verif.Device.device_holds_last_key Verif.Thm.Device propext Classical.choice Quot.sound
Verif.Device.device_others_kept Verif.Thm.Device propext Classical.choice Quot.sound
Verif.Device.device_peers_kept Verif.Thm.Device propext Classical.choice Quot.sound
Verif.initiates_as_in_paper Verif.Thm.Paper propext Classical.choice Quot.sound
Verif.answers_init_hello_as_in_paper Verif.Thm.Paper propext Classical.choice Quot.sound
Verif.accepts_resp_hello_as_in_paper Verif.Thm.Paper propext Classical.choice Quot.sound
Verif.accepts_init_conf_as_in_paper Verif.Thm.Paper propext Classical.choice Quot.sound
Verif.paper_initiator_interoperates Verif.Thm.Interop propext Classical.choice Quot.sound
Verif.paper_responder_interoperates Verif.Thm.Interop propext Classical.choice Quot.sound
Verif.under_load_as_in_paper_partial Verif.Thm.PaperCookie propext Classical.choice Quot.sound
Verif.cookie_used_as_in_paper_partial Verif.Thm.PaperCookie propext Classical.choice Quot.sound
Verif.paper_cookie_reply_refused Verif.Thm.PaperCookie propext Quot.sound
Verif.first_cookie_random Verif.Thm.PaperCookie propext Classical.choice Quot.sound
Verif.first_cookie_not_zero Verif.Thm.PaperCookie propext Quot.sound
Verif.App.published_key_is_current_partial Verif.Thm.Published propext Classical.choice Quot.sound
Verif.App.tampered_message_hides_key Verif.Thm.Published propext Quot.sound
Verif.realCrypto_lawful Verif.Thm.Primitives propext Classical.choice Quot.sound
Verif.ChaCha.detached_lawful Verif.Thm.Primitives propext Quot.sound
Verif.ChaCha.xDetached_lawful Verif.Thm.Primitives propext Quot.sound
Verif.ChaCha.dec_some Verif.Thm.Primitives propext Quot.sound
Verif.ChaCha.detached_fnEnc Verif.Thm.Primitives propext Quot.sound
Verif.ChaCha.detached_fnDec Verif.Thm.Primitives propext Quot.sound
Verif.ChaCha.xDetached_fnEnc Verif.Thm.Primitives propext Quot.sound
Verif.ChaCha.xDetached_fnDec Verif.Thm.Primitives propext Quot.sound
Verif.GenIpc.api_types_are_generated Verif.Thm.Primitives propext Classical.choice Quot.sound
Verif.GenIpc.api_type_is_hash Verif.Thm.Primitives propext Classical.choice Quot.sound
Verif.GenIpc.shake_types_unused Verif.Thm.Primitives propext Classical.choice Quot.sound
Verif.GenIpc.gen_eq Verif.Thm.Primitives propext Classical.choice Quot.sound
Verif.HashDomain.domains_distinct Verif.Thm.Domains propext Quot.sound
Verif.HashDomain.domains_fresh Verif.Thm.Domains propext Quot.sound
Verif.HashDomain.dom_value Verif.Thm.Domains propext Quot.sound
Verif.ConfigToml.read_whole_partial Verif.Thm.ConfigToml propext Classical.choice Quot.sound
Verif.ConfigToml.unknown_rejected Verif.Thm.ConfigToml propext Classical.choice Quot.sound
Verif.ConfigToml.rp_read_whole_partial Verif.Thm.ConfigTomlUse propext Quot.sound
Verif.ConfigToml.half_wireguard_ignored Verif.Thm.ConfigToml propext
Verif.ConfigToml.half_keypair_ignored Verif.Thm.ConfigToml propext
Verif.ConfigToml.read_back Verif.Thm.ConfigToml propext Classical.choice Quot.sound
Verif.ConfigToml.file_read_back Verif.Thm.ConfigTomlUse propext Classical.choice Quot.sound
Verif.ConfigToml.ser_once Verif.Thm.ConfigToml propext Classical.choice Quot.sound
Verif.index_in_range Verif.Thm.Index propext Classical.choice Quot.sound
Verif.session_id_not_taken_over Verif.Thm.Index propext Quot.sound
Verif.Device.device_key_is_current_partial Verif.Thm.DeviceCurrent propext Classical.choice Quot.sound
Verif.Device.tampered_message_keeps_old_device_key Verif.Thm.DeviceCurrent propext Classical.choice Quot.sound
Verif.App.daemon_leaves_alone Verif.Thm.DaemonRenewal propext Classical.choice Quot.sound
Verif.App.daemon_renews_partial Verif.Thm.DaemonRenewal propext Classical.choice Quot.sound
Verif.App.daemon_sends_renewal_partial Verif.Thm.DaemonRenewal propext Classical.choice Quot.sound
Verif.App.responder_never_renews Verif.Thm.DaemonRenewal propext Quot.sound
Verif.index_complete_partial Verif.Thm.Index propext Classical.choice Quot.sound
Verif.index_incomplete Verif.Thm.Index propext Classical.choice Quot.sound
Verif.add_peer_injective Verif.Thm.Index propext Classical.choice Quot.sound
Verif.peer_pointers_stable Verif.Thm.Index propext Classical.choice Quot.sound
Verif.session_lifecycle Verif.Thm.Lifecycle propext Classical.choice Quot.sound
Verif.exchange_session Verif.Thm.Lifecycle propext Classical.choice Quot.sound
Verif.poll_exact Verif.Thm.Timers propext Classical.choice Quot.sound
Verif.Server.poll_sleep_bounds Verif.Thm.PollBounds propext Classical.choice Quot.sound
Verif.poll_run_exact Verif.Thm.Lifecycle propext Classical.choice Quot.sound
Verif.poll_run_terminates Verif.Thm.Lifecycle propext Classical.choice Quot.sound
Verif.rekey_requested_again_partial Verif.Thm.Rekey propext Classical.choice Quot.sound
Verif.ignored_request_not_repeated Verif.Thm.Rekey propext Classical.choice Quot.sound
Verif.retransmission_schedule Verif.Thm.Retransmit propext Classical.choice Quot.sound
Verif.retransmissions_spaced Verif.Thm.Retransmit propext Classical.choice Quot.sound
Verif.no_handshake_no_retransmission Verif.Thm.Retransmit propext Classical.choice Quot.sound
Verif.emptyData_ends_handshake Verif.Thm.Retransmit propext Classical.choice Quot.sound
Verif.initConf_ends_handshake Verif.Thm.Retransmit propext Classical.choice Quot.sound
Verif.retransmitted_content Verif.Thm.Retransmit propext Classical.choice Quot.sound
Verif.forged_emptyData_harmless_partial Verif.Thm.Authentic propext Classical.choice Quot.sound
Verif.forged_emptyData_blocks_genuine Verif.Thm.Authentic propext Quot.sound
Verif.cookieReply_effect_partial Verif.Thm.Authentic propext Classical.choice Quot.sound
Verif.forged_cookie_overwrites Verif.Thm.Authentic propext Quot.sound
Verif.osk_domain_separation Verif.Thm.HashDomain propext Quot.sound
Verif.osk_for_separated Verif.Thm.HashDomain propext Quot.sound
Verif.osk_wireguard_alias Verif.Thm.HashDomain propext Quot.sound
Verif.transcript_binding Verif.Thm.Transcript propext Classical.choice Quot.sound
Verif.output_key_binds_transcript Verif.Thm.Transcript propext Quot.sound
Verif.initiator_transcript Verif.Thm.Transcript propext Classical.choice Quot.sound
Verif.responder_transcript Verif.Thm.Transcript propext Classical.choice Quot.sound
Verif.InitiatorSees.unique Verif.Thm.Transcript propext
Verif.ResponderSees.unique Verif.Thm.Transcript propext
Verif.hash_domains_separated Verif.Thm.HashDomain propext Quot.sound
Verif.hash_domain_injective Verif.Thm.HashDomain propext Quot.sound
Verif.chaining_key_uses_separated Verif.Thm.HashDomain propext Quot.sound
Verif.versions_separated Verif.Thm.HashDomain propext Quot.sound
Verif.version_separation Verif.Thm.Messages propext Classical.choice Quot.sound
Verif.biscuit_key_is_young Verif.Thm.Biscuits propext Classical.choice Quot.sound
Verif.biscuit_stays_valid Verif.Thm.Biscuits propext Classical.choice Quot.sound
Verif.biscuit_keys_expire Verif.Thm.Biscuits propext Quot.sound
Verif.cookie_secret_rotation_partial Verif.Thm.Secrets propext Classical.choice Quot.sound
Verif.old_secret_issues_cookies Verif.Thm.Secrets propext Quot.sound
Verif.envelope_wire_bijection Verif.Thm.Msgs propext Classical.choice Quot.sound
Verif.payload_wire_bijection Verif.Thm.Msgs propext Classical.choice Quot.sound
Verif.envelope_layout Verif.Thm.Msgs propext Quot.sound
Verif.payload_layout Verif.Thm.Msgs propext Quot.sound
Verif.msg_type_codes Verif.Thm.Msgs propext
Verif.ConstantTime.increment_is_succ Verif.Thm.ConstantTime propext Quot.sound
Verif.ConstantTime.compare_is_integer_comparison Verif.Thm.ConstantTime propext Classical.choice Quot.sound
Verif.ConstantTime.memcmp_iff_eq Verif.Thm.ConstantTime propext Classical.choice Quot.sound
Verif.ConstantTime.xor_involutive_comm Verif.Thm.ConstantTime propext Classical.choice Quot.sound
Verif.LengthPrefix.framing_round_trip Verif.Thm.LengthPrefix propext Classical.choice Quot.sound
Verif.LengthPrefix.encoder_sends_frame Verif.Thm.LengthPrefix propext Classical.choice Quot.sound
Verif.LengthPrefix.decoder_delivers_frame Verif.Thm.LengthPrefix propext Classical.choice Quot.sound
Verif.LengthPrefix.oversized_frame_rejected Verif.Thm.LengthPrefix propext Classical.choice Quot.sound
Verif.LengthPrefix.frame_stream_in_order Verif.Thm.LengthPrefix propext Classical.choice Quot.sound
Verif.FileIO.load_exact Verif.Thm.FileIO propext Classical.choice Quot.sound
Verif.FileIO.read_slice_exact Verif.Thm.FileIO propext Classical.choice Quot.sound
Verif.FileIO.b64_file_round_trip Verif.Thm.FileIO propext Classical.choice Quot.sound
Verif.FileIO.b64_store_too_small Verif.Thm.FileIO propext Quot.sound
Verif.FileIO.b64_round_trip Verif.Thm.FileIO propext Quot.sound
Verif.Api.tags_distinct Verif.Thm.ApiMsgs 
Verif.Api.typeFromPrefix_spec Verif.Thm.ApiMsgs propext Classical.choice Quot.sound
Verif.Api.typeFromSuffix_spec Verif.Thm.ApiMsgs propext Classical.choice Quot.sound
Verif.Api.parse_exact Verif.Thm.ApiMsgs propext Classical.choice Quot.sound
Verif.Api.parse_prefix_exact Verif.Thm.ApiMsgs propext Classical.choice Quot.sound
Verif.Api.encode_parse Verif.Thm.ApiMsgs propext Classical.choice Quot.sound
Verif.Api.parse_suffix_partial Verif.Thm.ApiMsgs propext Classical.choice Quot.sound
Verif.Api.suffix_parse_wrong_type Verif.Thm.ApiMsgs propext Classical.choice Quot.sound
Verif.Api.misaligned_refused Verif.Thm.ApiMsgs propext Classical.choice Quot.sound
Verif.Api.setup_spec Verif.Thm.ApiMsgs propext Quot.sound
Verif.Api.closed_after_last_answer Verif.Thm.ApiExtra propext Classical.choice Quot.sound
Verif.Api.requests_answered_once_in_order_partial Verif.Thm.ApiHist propext Classical.choice Quot.sound
Verif.Api.all_requests_answered Verif.Thm.ApiLive propext Classical.choice Quot.sound
Verif.Api.harmless_requests_answered Verif.Thm.ApiLive propext Classical.choice Quot.sound
Verif.Api.wellformed_answered Verif.Thm.ApiLive propext Classical.choice Quot.sound
Verif.Api.oversized_request_closes Verif.Thm.ApiLive propext Classical.choice Quot.sound
Verif.Api.Mgr.connections_do_not_mix Verif.Thm.ApiManager propext Quot.sound
Verif.Api.malformed_request_fails_forever Verif.Thm.ApiLive propext Classical.choice Quot.sound
Verif.Api.Mgr.poisoned_pass_fails Verif.Thm.ApiManager propext Classical.choice Quot.sound
Verif.Api.Mgr.every_connection_polled_partial Verif.Thm.ApiManager propext Classical.choice Quot.sound
Verif.Api.Mgr.event_never_reaches_connection Verif.Thm.ApiManager propext Quot.sound
Verif.Api.Mgr.event_panics_of_missing_listener Verif.Thm.ApiManager propext Quot.sound
Verif.Api.Mgr.lone_connection_event_panics Verif.Thm.ApiManager propext Classical.choice Quot.sound
Verif.App.keypair_supplied_once Verif.Thm.AppLoop propext Classical.choice Quot.sound
Verif.Api.request_uses_own_descriptors Verif.Thm.ApiHist propext Classical.choice Quot.sound
Verif.Site.site_lifecycle Verif.Thm.Build propext Quot.sound
Verif.Site.failed_build_is_final Verif.Thm.Build propext Quot.sound
Verif.Site.taken_stays_void Verif.Thm.Build propext Quot.sound
Verif.Site.edits_take_effect Verif.Thm.Build propext
Verif.Broker.request_round_trip Verif.Thm.Broker propext Classical.choice Quot.sound
Verif.Broker.long_name_refused Verif.Thm.Broker propext Classical.choice Quot.sound
Verif.Broker.utf8_iff Verif.Thm.Broker propext Classical.choice Quot.sound
Verif.Broker.netlink_result_partial Verif.Thm.Broker propext Classical.choice Quot.sound
Verif.Broker.result_reported Verif.Thm.Broker propext Classical.choice Quot.sound
Verif.Broker.parseResponse_exact Verif.Thm.Broker propext
Verif.Broker.missing_interface_never_reported Verif.Thm.Broker propext Classical.choice Quot.sound
Verif.Broker.missing_interface_is_internal_error Verif.Thm.Broker propext Classical.choice Quot.sound
Verif.Broker.removed_peer_reported_as_success Verif.Thm.Broker propext Classical.choice Quot.sound
Verif.Broker.only_first_answer_seen Verif.Thm.BrokerClient propext Classical.choice Quot.sound
Verif.Broker.result_of_first_key_only Verif.Thm.BrokerClient propext Classical.choice Quot.sound
Verif.Broker.invalid_answer_is_error Verif.Thm.BrokerClient propext Classical.choice Quot.sound
Verif.Broker.malformed_requests_refused Verif.Thm.Broker propext Classical.choice Quot.sound
Verif.Broker.wrong_type_refused Verif.Thm.Broker propext Classical.choice Quot.sound
Verif.Broker.wrong_length_refused Verif.Thm.Broker propext Classical.choice Quot.sound
Verif.Discovery.all_addresses_tried_partial Verif.Thm.Endpoint propext Quot.sound
Verif.Discovery.unreachable_address_blocks_discovery Verif.Thm.Endpoint propext Quot.sound
Verif.App.gives_up_after_eleven_failures_partial Verif.Thm.AppLoop propext Classical.choice Quot.sound
Verif.App.scattered_failures_stop_daemon Verif.Thm.AppLoop propext Classical.choice Quot.sound
Verif.App.undeliverable_answer_is_failure Verif.Thm.AppLoop propext Quot.sound
Verif.App.peer_tables_aligned_partial Verif.Thm.AppHist propext Classical.choice Quot.sound
Verif.App.unresolved_host_breaks_add_peer Verif.Thm.AppHist propext Quot.sound
Verif.App.broker_handles_unique_partial Verif.Thm.AppLoop propext Classical.choice Quot.sound
Verif.App.socket_token_not_a_brokers Verif.Thm.AppLoop propext Quot.sound
Verif.App.broker_handle_collision Verif.Thm.AppLoop propext Classical.choice Quot.sound
Verif.App.failed_registration_panics_later Verif.Thm.AppLoop propext Classical.choice Quot.sound
Verif.Recv.load_detection_exact Verif.Thm.Recv propext Classical.choice Quot.sound
Verif.Daemon.load_status_selects_path Verif.Thm.Recv propext Quot.sound
Verif.App.key_output_sound Verif.Thm.App propext Classical.choice Quot.sound
Verif.App.key_output_complete Verif.Thm.App propext Classical.choice Quot.sound
Verif.host_id_injective Verif.Thm.Endpoint propext Quot.sound
Verif.host_id_injective_v4 Verif.Thm.Endpoint propext Quot.sound
Verif.Config.parse_args_no_panic Verif.Thm.Config propext Classical.choice Quot.sound
Verif.Config.documented_lines_accepted_partial Verif.Thm.ConfigParse propext Classical.choice Quot.sound
Verif.Config.accepted_only Verif.Thm.ConfigEx propext Classical.choice Quot.sound
Verif.Config.psk_and_endpoint_refused Verif.Thm.ConfigEx propext Classical.choice Quot.sound
Verif.Config.dangling_option_accepted Verif.Thm.ConfigEx propext Classical.choice Quot.sound
Verif.Config.validate_exact Verif.Thm.ConfigEx propext Quot.sound
Verif.Rp.parse_exact Verif.Thm.RpCli propext Classical.choice Quot.sound
Verif.Rp.one_command_partial Verif.Thm.RpCli propext Classical.choice Quot.sound
Verif.Rp.help_replaces_command Verif.Thm.RpCli propext Classical.choice Quot.sound
Verif.KeyGen.gen_keys_keeps_existing Verif.Thm.KeyGen propext Quot.sound
Verif.KeyGen.gen_keys_success_partial Verif.Thm.KeyGen propext Quot.sound
Verif.KeyGen.gen_keys_succeeds Verif.Thm.KeyGen propext Quot.sound
Verif.KeyGen.forced_rerun_completes Verif.Thm.KeyGen propext Quot.sound
Verif.KeyGen.complete_files_match Verif.Thm.KeyGen propext Quot.sound
Verif.KeyGen.gen_config_keeps_existing Verif.Thm.KeyGen propext
Verif.KeyGen.rp_genkey_keeps_existing Verif.Thm.RpKey propext Classical.choice Quot.sound
Verif.KeyGen.rp_genkey_success_partial Verif.Thm.RpKey propext Classical.choice Quot.sound
Verif.KeyGen.rp_genkey_succeeds Verif.Thm.RpKey propext Classical.choice Quot.sound
Verif.KeyGen.killed_run_blocks_reruns Verif.Thm.KeyGen propext Quot.sound
Verif.KeyGen.same_path_loses_secret Verif.Thm.KeyGen propext Quot.sound
Verif.KeyGen.forced_run_leaves_mixed_pair Verif.Thm.KeyGen propext Quot.sound
Verif.KeyGen.rp_existing_directory_refused Verif.Thm.RpKey propext Classical.choice Quot.sound
Verif.KeyGen.rp_reruns_refused Verif.Thm.RpKey propext Classical.choice Quot.sound
Verif.KeyGen.rp_public_without_secret Verif.Thm.RpKey propext Classical.choice Quot.sound
Verif.SecretMem.new_secret_is_zero Verif.Thm.SecretMem propext Classical.choice Quot.sound
Verif.SecretMem.no_secret_bytes_left Verif.Thm.SecretMem propext Classical.choice Quot.sound
Verif.FileIO.secret_file_private_partial Verif.Thm.FileIO propext Quot.sound
Verif.FileIO.new_file_permissions Verif.Thm.FileIO propext Quot.sound
Verif.FileIO.existing_secret_file_keeps_mode Verif.Thm.FileIO propext Quot.sound
Verif.Janitor.jobs_awaited_partial Verif.Thm.Janitor propext Classical.choice Quot.sound
Verif.Janitor.scope_returns Verif.Thm.Janitor propext Classical.choice Quot.sound
Verif.Janitor.jobs_cannot_spawn_jobs Verif.Thm.Janitor 
Verif.Janitor.failed_job_ends_scope Verif.Thm.Janitor propext
Verif.Janitor.has_active_janitor_inverted Verif.Thm.Janitor propext Classical.choice Quot.sound
Verif.FdPass.descriptors_in_order_and_bounded Verif.Thm.FdPass propext Quot.sound
Verif.FdPass.batch_all_or_none Verif.Thm.FdPass propext Classical.choice Quot.sound
Verif.FdPass.write_sends_queue_front Verif.Thm.FdPass propext Quot.sound
Verif.FdPass.claim_failure_loses_bytes Verif.Thm.FdPass 
Verif.FileIO.nonblocking_classification Verif.Thm.FileIO propext
Verif.FileIO.interrupted_classification Verif.Thm.FileIO propext
Verif.FileIO.substitute_exact Verif.Thm.FileIO propext
Verif.FileIO.slice_copies Verif.Thm.FileIO propext Quot.sound
Verif.FileIO.slice_copies_length Verif.Thm.FileIO propext Quot.sound
Verif.FileIO.cat_spec Verif.Thm.FileIO propext Quot.sound
Verif.FileIO.b64_load_accepts_partial Verif.Thm.FileIO propext Classical.choice Quot.sound
Verif.FileIO.short_b64_accepted Verif.Thm.FileIO propext
Verif.chaining_key_erased Verif.Thm.Fair propext Classical.choice Quot.sound
Verif.poll_fair Verif.Thm.Fair propext Classical.choice Quot.sound
Verif.build_exact Verif.Thm.Build propext Classical.choice Quot.sound
Verif.with_keypair_first Verif.Thm.Build propext
Verif.Discovery.all_combinations_used_partial Verif.Thm.Endpoint propext Classical.choice Quot.sound
Verif.Discovery.combinations_used Verif.Thm.Endpoint propext Classical.choice Quot.sound
Verif.Discovery.combination_never_used Verif.Thm.Endpoint propext Classical.choice Quot.sound
Verif.Endpoint.restart_discovery Verif.Thm.Endpoint propext Quot.sound
Verif.App.event_loop_no_panic_partial Verif.Thm.AppHist propext Classical.choice Quot.sound
Verif.App.unregistered_broker_panics Verif.Thm.AppEx propext Classical.choice Quot.sound
Verif.App.lost_key_superseded_partial Verif.Thm.KeyRecovery propext Classical.choice Quot.sound
Verif.App.undelivered_answer_loses_key Verif.Thm.AppEx propext Quot.sound
Verif.App.failed_erase_not_repeated Verif.Thm.AppEx propext Classical.choice Quot.sound
Verif.Recv.datagram_delayed_at_most_once_partial Verif.Thm.Recv propext Classical.choice Quot.sound
Verif.Recv.blocks_while_datagram_waits Verif.Thm.Recv propext Classical.choice Quot.sound
Verif.Recv.datagrams_delivered_in_order Verif.Thm.Recv propext Classical.choice Quot.sound
Verif.Recv.none_only_if_empty Verif.Thm.Recv propext Quot.sound
Verif.Recv.backlog_is_worked_off_partial Verif.Thm.Recv propext Classical.choice Quot.sound
Verif.Recv.flooded_socket_starves_others Verif.Thm.Recv propext Quot.sound
Verif.Broker.keys_set_in_order Verif.Thm.BrokerClient propext Classical.choice Quot.sound
Verif.Broker.set_psk_never_panics Verif.Thm.BrokerClient propext Classical.choice Quot.sound
Verif.Broker.answers_go_to_their_client Verif.Thm.BrokerSocket propext Classical.choice Quot.sound
Verif.Broker.all_clients_answered_partial Verif.Thm.BrokerSocket propext Classical.choice Quot.sound
Verif.Broker.handler_comes_to_rest Verif.Thm.BrokerSocket propext Classical.choice Quot.sound
Verif.Broker.silent_for_ever Verif.Thm.BrokerSocket propext Classical.choice Quot.sound
Verif.Broker.bad_message_blocks_everyone Verif.Thm.BrokerSocket propext Classical.choice Quot.sound
Verif.Broker.at_most_100_waiting Verif.Thm.BrokerSocket propext Classical.choice Quot.sound
Verif.Broker.privileged_in_order Verif.Thm.Broker propext Classical.choice Quot.sound
Verif.Broker.serve_incomplete Verif.Thm.Broker propext Classical.choice Quot.sound
Verif.Broker.oversized_ends_process Verif.Thm.Broker propext Classical.choice Quot.sound
Verif.KeyGen.pubkey_exports Verif.Thm.RpKey propext Classical.choice Quot.sound
Verif.KeyGen.pubkey_frame Verif.Thm.RpKey propext Classical.choice Quot.sound
Verif.KeyGen.genkey_then_pubkey Verif.Thm.RpKey propext Classical.choice Quot.sound
Verif.KeyGen.pubkey_cannot_be_repeated Verif.Thm.RpKey propext Classical.choice Quot.sound
Verif.Startup.startup_exact Verif.Thm.Startup propext Classical.choice Quot.sound
Verif.Startup.validated_starts_partial Verif.Thm.Startup propext Classical.choice Quot.sound
Verif.Startup.validated_not_started Verif.Thm.Startup propext Classical.choice Quot.sound
Verif.Startup.supply_after_startup Verif.Thm.Startup propext Classical.choice Quot.sound
Verif.Startup.listens_as_configured Verif.Thm.Startup propext Quot.sound
Verif.SecretMem.secrets_behave_as_values Verif.Thm.SecretMem propext Classical.choice Quot.sound
Verif.SecretMem.memory_is_sound Verif.Thm.SecretMem propext Classical.choice Quot.sound
Verif.SecretMem.policy_stays Verif.Thm.SecretMem 
Verif.SecretMem.threads_leave_nothing Verif.Thm.SecretMem propext Classical.choice Quot.sound
Verif.NativeUnix.key_set_through_wg_partial Verif.Thm.NativeUnix propext Classical.choice Quot.sound
Verif.NativeUnix.key_not_on_command_line Verif.Thm.NativeUnix propext Classical.choice Quot.sound
Verif.NativeUnix.ok_iff_started Verif.Thm.NativeUnix propext Classical.choice Quot.sound
Verif.NativeUnix.failure_of_wg_not_reported Verif.Thm.NativeUnix propext Classical.choice Quot.sound
Verif.NativeUnix.params_round_trip Verif.Thm.NativeUnix propext Classical.choice Quot.sound
Verif.NativeUnix.trailing_bytes_ignored Verif.Thm.NativeUnix propext Classical.choice Quot.sound
Verif.NativeUnix.peer_id_round_trip Verif.Thm.NativeUnix propext Quot.sound
Verif.NativeUnix.peer_id_accepts_partial Verif.Thm.NativeUnix propext Quot.sound
Verif.NativeUnix.truncated_peer_id_accepted Verif.Thm.NativeUnix propext
Verif.NativeUnix.empty_params_refused Verif.Thm.NativeUnix propext Classical.choice Quot.sound
Verif.RpDevice.only_own_device_touched Verif.Thm.RpDevice propext Classical.choice Quot.sound
Verif.RpDevice.device_configured Verif.Thm.RpDevice propext Classical.choice Quot.sound
Verif.RpDevice.existing_device_refused Verif.Thm.RpDevice propext Classical.choice Quot.sound
Verif.RpDevice.device_removed_partial Verif.Thm.RpDevice propext Classical.choice Quot.sound
Verif.RpDevice.failed_up_leaves_device Verif.Thm.RpDevice propext Classical.choice Quot.sound
Verif.LengthPrefix.encoder_calls_safe_partial Verif.Thm.LengthPrefixApi propext Classical.choice Quot.sound
Verif.LengthPrefix.positioning_exact Verif.Thm.LengthPrefixApi propext Classical.choice Quot.sound
Verif.LengthPrefix.too_long_message_reported Verif.Thm.LengthPrefixApi propext Classical.choice Quot.sound
Verif.LengthPrefix.constructors_exact Verif.Thm.LengthPrefixApi propext Classical.choice Quot.sound
Verif.LengthPrefix.encoder_views Verif.Thm.LengthPrefixApi propext Quot.sound
Verif.LengthPrefix.decoder_calls_safe Verif.Thm.LengthPrefixApi propext Classical.choice Quot.sound
Verif.LengthPrefix.offset_overflow Verif.Thm.LengthPrefixApi propext Quot.sound
Verif.LengthPrefix.advance_past_message Verif.Thm.LengthPrefixApi propext Quot.sound
Verif.RpExchange.exchange_exact_partial Verif.Thm.RpExchange propext Classical.choice Quot.sound
Verif.RpExchange.no_keys_nothing_done Verif.Thm.RpExchange propext Classical.choice Quot.sound
Verif.RpExchange.wg_command Verif.Thm.RpExchange propext Classical.choice Quot.sound
Verif.RpExchange.wg_ports_agree Verif.Thm.RpExchange propext Quot.sound
Verif.RpExchange.ip_failures_ignored Verif.Thm.RpExchange propext Classical.choice Quot.sound
Verif.RpExchange.port_65535_panics Verif.Thm.RpExchange propext Classical.choice Quot.sound
Verif.RpExchange.port_65535_wraps Verif.Thm.RpExchange propext Quot.sound
Verif.RpExchange.scope_dropped Verif.Thm.RpExchange 
Verif.App.peer_address_changes Verif.Thm.AppPeers propext Classical.choice Quot.sound
Verif.App.datagram_recipient Verif.Thm.AppPeers propext Classical.choice Quot.sound
Verif.App.due_message_sent Verif.Thm.AppPeers propext Quot.sound
Verif.App.addresses_known Verif.Thm.AppPeers propext Classical.choice Quot.sound
Verif.App.unprompted_datagrams Verif.Thm.AppPeers propext Classical.choice Quot.sound
Verif.App.loop_ends_on_signal Verif.Thm.AppPeers propext Classical.choice Quot.sound
Verif.Api.supply_status Verif.Thm.ApiExtra propext Classical.choice Quot.sound
Verif.Api.listen_status Verif.Thm.ApiExtra propext Classical.choice Quot.sound
Verif.Api.broker_status_partial Verif.Thm.ApiExtra propext Classical.choice Quot.sound
Verif.Api.first_broker_refused Verif.Thm.ApiExtra propext Classical.choice Quot.sound
Verif.Api.failed_replacement_loses_broker Verif.Thm.ApiExtra propext Classical.choice Quot.sound
Verif.Api.Mgr.events_before_first_close_partial Verif.Thm.ApiExtra propext Quot.sound
Verif.Api.Mgr.connection_after_close_panics Verif.Thm.ApiExtra propext Classical.choice Quot.sound
Verif.Api.Mgr.oversized_request_then_reconnect_panics Verif.Thm.ApiExtra propext Classical.choice Quot.sound
Verif.Sym.initiator_security Verif.Thm.SymbolicAuth propext Quot.sound
Verif.Sym.responder_security Verif.Thm.SymbolicAuth propext Quot.sound
Verif.Sym.initiator_confirmation Verif.Thm.SymbolicAuth propext Quot.sound
Verif.Sym.honest_exchange Verif.Thm.SymbolicEx propext Quot.sound
Verif.Sym.initiation_link Verif.Thm.SymbolicLink propext Quot.sound
Verif.Sym.ihr_link Verif.Thm.SymbolicLink propext Quot.sound
Verif.Sym.rhr_link Verif.Thm.SymbolicLink propext Quot.sound
Verif.Sym.rhi_link Verif.Thm.SymbolicLink propext Quot.sound
Verif.Sym.icr_link Verif.Thm.SymbolicLink propext Quot.sound
Verif.Sym.ack_link Verif.Thm.SymbolicLink propext Quot.sound
Verif.Sym.initiator_key_known_iff Verif.Thm.SymbolicEx propext Quot.sound
Verif.Sym.osk_link Verif.Thm.SymbolicLink propext Quot.sound
Verif.Sym.initiator_keys_fresh Verif.Thm.SymbolicAuth propext Quot.sound
Verif.Sym.responder_keys_fresh Verif.Thm.SymbolicAuth propext Quot.sound
Verif.Sym.cross_keys_fresh Verif.Thm.SymbolicAuth propext Quot.sound
Verif.Aead.buffers_partial Verif.Thm.Aead propext Quot.sound
Verif.Aead.encrypt_refused Verif.Thm.Aead propext Quot.sound
Verif.Aead.encrypt_cases Verif.Thm.Aead propext Quot.sound
Verif.Aead.decrypt_cases Verif.Thm.Aead propext Quot.sound
Verif.Aead.encryptN_cases Verif.Thm.Aead propext Quot.sound
Verif.Aead.decryptN_cases Verif.Thm.Aead propext Quot.sound
Verif.Aead.round_trip Verif.Thm.Aead propext Classical.choice Quot.sound
Verif.Aead.round_tripN Verif.Thm.Aead propext Classical.choice Quot.sound
Verif.Aead.fn_lawful Verif.Thm.Aead propext Classical.choice Quot.sound
Verif.Aead.xSeal_link Verif.Thm.Aead propext Quot.sound
Verif.Aead.xOpen_link Verif.Thm.Aead propext Quot.sound
Verif.Aead.long_buffer_panics Verif.Thm.Aead propext Quot.sound
Verif.Serialization.serde_round_trip Verif.Thm.Serialization propext Quot.sound
Verif.Serialization.serde_accepts Verif.Thm.Serialization propext Classical.choice Quot.sound
Verif.Serialization.serde_length Verif.Thm.Serialization propext Classical.choice Quot.sound
Verif.Serialization.serialize_injective Verif.Thm.Serialization propext Quot.sound
Verif.App.daemons_agree Verif.Thm.EndToEnd propext Classical.choice Quot.sound
Verif.App.Ready.step Verif.Thm.EndToEnd propext Classical.choice Quot.sound
Verif.Typenum.conversion_exact Verif.Thm.Typenum propext Classical.choice Quot.sound
Verif.Typenum.conversion_modular Verif.Thm.Typenum propext Classical.choice Quot.sound
Verif.Typenum.too_large_wraps Verif.Thm.Typenum propext Classical.choice Quot.sound
Verif.completes_despite_loss Verif.Thm.Recovery propext Classical.choice Quot.sound
