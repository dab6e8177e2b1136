{"id": "C01", "title": "Key agreement", "statement": "If two servers are registered with each other (matching static keys, same PSK, same protocol version, same OSK domain separator) and the four handshake messages are delivered, every step succeeds, both servers report the exchange with the right peer, and `osk()` returns the same key on both sides.", "quantifier": "all server states with free session ids, all randomness, all key pairs, both protocol versions, every lawful crypto suite", "why_tests_cant": "a test runs a handful of random handshakes from fresh servers; the claim is about every server history, every random choice and every key", "anchors": ["rosenpass/src/protocol/protocol.rs: CryptoServer::initiate_handshake, handle_msg, handle_initiation, handle_init_hello, handle_resp_hello, handle_init_conf, handle_resp_conf, osk"]}
{"id": "C02", "title": "InitConf replay protection", "statement": "Each biscuit leads to at most one key exchange: in every history, the biscuit numbers accepted from one peer are strictly increasing, so no recorded InitConf establishes a session twice.", "quantifier": "all histories of API calls and network messages, all message bytes", "why_tests_cant": "replays can be interleaved with anything; tests try a few interleavings", "anchors": ["rosenpass/src/protocol/protocol.rs: handle_init_conf, Peer::biscuit_used"]}
{"id": "C03", "title": "Retransmitted InitConf is idempotent", "statement": "Receiving a byte-identical InitConf again yields the same EmptyData payload again and leaves sessions, handshakes and replay counters of every peer unchanged.", "quantifier": "all server states, all InitConf messages, any number of repetitions", "why_tests_cant": "must hold in every state the server can be in when the duplicate arrives", "anchors": ["rosenpass/src/protocol/protocol.rs: handle_msg (InitConf branch), KnownInitConfResponsePtr, lookup_known_init_conf_response"]}
{"id": "C04", "title": "Biscuit counters are never reused", "statement": "Within 2^96 responses the biscuit number put in every RespHello is strictly larger than all previous ones, whichever peers the biscuits are for, and never 0: no biscuit number is issued twice.", "quantifier": "all histories of operations, all interleavings of initiations and messages", "why_tests_cant": "nonce reuse is a property of the whole history", "anchors": ["rosenpass/src/protocol/protocol.rs: HandshakeState::store_biscuit, CryptoServer::biscuit_ctr", "constant-time/src/increment.rs: increment"]}
{"id": "C05", "title": "A key exchange is only reported after authentication", "statement": "`handle_msg` reports `exchanged_with = Some(peer)` only for a RespHello that answers that peer's current handshake and decrypts under its handshake state, or for an InitConf whose biscuit authenticates, is fresh for exactly that peer, and whose auth tag decrypts; in both cases the envelope MAC was correct.", "quantifier": "all server states, all byte strings, all randomness", "why_tests_cant": "quantifies over every forged byte string", "anchors": ["rosenpass/src/protocol/protocol.rs: handle_msg, handle_resp_hello, handle_init_conf"]}
{"id": "C06", "title": "Peer isolation", "statement": "Processing any message changes the session, handshake, replay counter, cached response and key of at most one peer; all other peers' observable state is untouched.", "quantifier": "all server states, all messages, all pairs of distinct peers", "why_tests_cant": "cross-talk can only be excluded by considering all states", "anchors": ["rosenpass/src/protocol/protocol.rs: handle_msg, IniHsPtr::insert, SessionPtr::insert, KnownInitConfResponsePtr::insert"]}
{"id": "C07", "title": "A rejected message has no effect on peers", "statement": "If `handle_msg` returns an error, no peer's session, handshake, replay counter or cookie store is changed.", "quantifier": "all server states, all byte strings", "why_tests_cant": "quantifies over every malformed, truncated, forged or replayed message", "anchors": ["rosenpass/src/protocol/protocol.rs: handle_msg, handle_init_conf, handle_resp_hello, handle_resp_conf, handle_cookie_reply, check_seal"]}
{"id": "C08", "title": "Only correctly sealed messages are accepted", "statement": "A handshake message whose MAC is not the one computed for this server's public key over exactly the transmitted type, reserved bytes and payload is answered with an error: no reply is produced and no exchange reported.", "quantifier": "all server states and byte strings", "why_tests_cant": "every bit pattern of MAC and payload is covered", "anchors": ["rosenpass/src/protocol/protocol.rs: Envelope::check_seal, Envelope::seal"]}
{"id": "C09", "title": "Message handling is total and panic free on network input", "statement": "`handle_msg` and `handle_msg_under_load` return Ok or Err for every byte string, never index out of bounds or hit an unwrap, and wrong-length inputs are rejected.", "quantifier": "all byte strings of all lengths, all reachable states", "why_tests_cant": "fuzzing samples; totality is universal", "anchors": ["rosenpass/src/protocol/protocol.rs: handle_msg, handle_msg_under_load", "rosenpass/src/msgs.rs: Envelope, MsgType"]}
{"id": "C10", "title": "Responses fit the transmit buffer and bound amplification", "statement": "Every reply produced by `handle_msg`/`handle_msg_under_load` has the fixed length of its type, fits in MAX_MESSAGE_LEN, and a reply to an unauthenticated message is at most 40 bytes longer than the request; under load the reply is exactly as long as the request.", "quantifier": "all messages and states", "why_tests_cant": "sizes must hold for each message path", "anchors": ["rosenpass/src/protocol/protocol.rs: handle_msg, handle_msg_under_load", "rosenpass/src/msgs.rs: MAX_MESSAGE_LEN"]}
{"id": "C11", "title": "Under load, no unauthenticated address triggers handshake work", "statement": "While under load, an InitHello without a cookie valid for the sender's address under an active or retired cookie secret never reaches handshake processing: no peer or biscuit state changes and the only effect is a CookieReply; RespHello, EmptyData, CookieReply and unknown types are rejected and InitConf is processed normally.", "quantifier": "all server states, all messages, all sender addresses", "why_tests_cant": "DoS claims concern every attacker message", "anchors": ["rosenpass/src/protocol/protocol.rs: handle_msg_under_load, active_or_retired_cookie_secrets"]}
{"id": "C12", "title": "Cookie mechanism liveness", "statement": "An initiator that received a CookieReply for its InitHello retransmits an InitHello which a responder under load accepts from the same address as long as the cookie secret is still active or retired.", "quantifier": "all states, times within the epochs, all randomness", "why_tests_cant": "requires the composition of two machines over time", "anchors": ["rosenpass/src/protocol/protocol.rs: handle_cookie_reply, apply_retransmission, seal_cookie, handle_msg_under_load"]}
{"id": "C13", "title": "Cookies are bound to the sender's address", "statement": "Two different host identifications get different cookies under the same secret, unless the keyed hash collides on them.", "quantifier": "all pairs of host identifications and secrets", "why_tests_cant": "for all addresses", "anchors": ["rosenpass/src/protocol/protocol.rs: handle_msg_under_load", "rosenpass/src/app_server.rs: SocketBoundEndpoint::to_bytes"]}
{"id": "C14", "title": "Session-id index is sound", "statement": "In every reachable state each indexed session id or peer id refers to an existing peer; looking a session id up returns only a peer whose current handshake or session carries exactly that id; an id owned by one peer is never reassigned to another.", "quantifier": "all histories of add_peer, initiations and messages", "why_tests_cant": "an invariant over unbounded histories", "anchors": ["rosenpass/src/protocol/protocol.rs: register_session, unregister_session_if_vacant, lookup_handshake, lookup_session", "rosenpass/src/protocol/index.rs"]}
{"id": "C15", "title": "Session-id index is complete", "statement": "Every live handshake and session of every peer can be found through its session id.", "quantifier": "all histories of API calls and messages and all random session ids", "why_tests_cant": "an invariant over unbounded histories including id collisions", "anchors": ["rosenpass/src/protocol/protocol.rs: IniHsPtr::insert, SessionPtr::insert, IniHsPtr::take, SessionPtr::take"]}
{"id": "C16", "title": "Peer registration is injective", "statement": "Adding a peer whose peer id is already registered fails and leaves the peer list unchanged; otherwise the peer is found under its id afterwards and previously registered peers keep their pointers.", "quantifier": "all sequences of add_peer calls and keys", "why_tests_cant": "for all sequences", "anchors": ["rosenpass/src/protocol/protocol.rs: CryptoServer::add_peer, find_peer"]}
{"id": "C17", "title": "Session life cycle thresholds", "statement": "A session is usable exactly from creation until REJECT_AFTER_TIME; initiators are asked to rekey after 130 s and responders after 120 s; once the session is older than REJECT_AFTER_TIME polling yields DeleteKey for that peer.", "quantifier": "all creation times and all now values", "why_tests_cant": "continuous time", "anchors": ["rosenpass/src/protocol/protocol.rs: Mortal impls, PeerPtr::poll, CryptoServer::poll", "rosenpass/src/protocol/constants.rs"]}
{"id": "C18", "title": "Polling never misses or invents events", "statement": "`poll` returns an event only when it is due, returns Sleep(t) only if nothing is due before t, and every Sleep lies between EVENT_GRACE and UNENDING (so it converts to a valid Duration).", "quantifier": "all server states and times", "why_tests_cant": "for all combinations of timers of all peers", "anchors": ["rosenpass/src/protocol/protocol.rs: CryptoServer::poll, PollResult, Wait"]}
{"id": "C19", "title": "Rekeying is requested again after a failed attempt", "statement": "If no handshake completes, `poll` eventually asks for another initiation.", "quantifier": "all infinite schedules", "why_tests_cant": "liveness over schedules", "anchors": ["rosenpass/src/protocol/protocol.rs: PeerPtr::poll, initiation_requested", "rosenpass/src/app_server.rs: AppServer::event_loop_without_error_handling"]}
{"id": "C20", "title": "Retransmission back-off is bounded", "statement": "Each retransmission is scheduled between half and once the nominal delay, the nominal delay doubles from 0.5 s and never exceeds 10 s (an accepted cookie reply causes one immediate retransmission), the retransmitted message is the one sent first up to its trailing cookie, and a handshake that ends stops retransmitting.", "quantifier": "all retransmission counts and jitter values", "why_tests_cant": "for all counts, random jitter", "anchors": ["rosenpass/src/protocol/protocol.rs: register_retransmission, apply_retransmission, IniHsPtr::poll"]}
{"id": "C21", "title": "EmptyData only ends the handshake if authentic", "statement": "The initiator stops retransmitting and treats the handshake as confirmed only on an EmptyData that decrypts under the session's receive key and is fresh; a forged EmptyData does not make the server reject the genuine one.", "quantifier": "all EmptyData messages, genuine or forged, in every order", "why_tests_cant": "adversarial orderings", "anchors": ["rosenpass/src/protocol/protocol.rs: handle_resp_conf, Session::txnt"]}
{"id": "C22", "title": "Cookie replies only take effect if authentic", "statement": "A CookieReply changes the stored cookie only if it decrypts under the peer key for a handshake currently in progress.", "quantifier": "all CookieReply messages", "why_tests_cant": "for all forged bytes", "anchors": ["rosenpass/src/protocol/protocol.rs: handle_cookie_reply", "rosenpass/src/protocol/cookies.rs"]}
{"id": "C23", "title": "OSK domain separation", "statement": "Two sessions with the same secrets but different OSK domain separators yield different keys, unless the keyed hash collides; equal separators yield equal keys.", "quantifier": "all domain separators and key chains", "why_tests_cant": "for all strings", "anchors": ["rosenpass/src/protocol/protocol.rs: osk", "rosenpass/src/protocol/osk_domain_separator.rs", "rosenpass/src/hash_domains.rs"]}
{"id": "C24", "title": "Transcript binding", "statement": "If initiator and responder hold the same chaining key after the handshake then they agree on responder key, initiator identity, session ids, all KEM shared secrets and ciphertexts, the PSK and the biscuit, unless the keyed hash collides on the inputs of these two runs.", "quantifier": "all pairs of runs, even with an adversary in between", "why_tests_cant": "for all transcripts", "anchors": ["rosenpass/src/protocol/protocol.rs: HandshakeState::mix, encaps_and_mix, decaps_and_mix, store_biscuit, load_biscuit"]}
{"id": "C25", "title": "Hash domains are separated", "statement": "Different protocol labels never lead to the same domain-separated hash value, unless the keyed hash collides.", "quantifier": "all labels, keys and data", "why_tests_cant": "for all data", "anchors": ["rosenpass/src/hash_domains.rs", "ciphers/src/hash_domain.rs"]}
{"id": "C26", "title": "Protocol version separation", "statement": "A handshake message sealed for one protocol version is only accepted for peers configured with that version.", "quantifier": "all messages and all peer configurations", "why_tests_cant": "for all messages", "anchors": ["rosenpass/src/protocol/protocol.rs: verify_hash_choice_match, handle_msg"]}
{"id": "C27", "title": "Biscuit keys rotate and old biscuits expire", "statement": "A new biscuit is only ever sealed with a biscuit key younger than BISCUIT_EPOCH (300 s); a biscuit issued at time t opens, to the same content, for at least another BISCUIT_EPOCH whatever else happens; and after every poll each biscuit key the server would open biscuits with is unset or younger than twice BISCUIT_EPOCH.", "quantifier": "all times and histories", "why_tests_cant": "continuous time, all histories", "anchors": ["rosenpass/src/protocol/protocol.rs: active_biscuit_key, load_biscuit, BiscuitKey lifecycle"]}
{"id": "C28", "title": "Cookie secrets rotate", "statement": "The cookie secret used to issue cookies is younger than COOKIE_SECRET_EPOCH and cookies are only checked against secrets younger than twice that.", "quantifier": "all times and histories", "why_tests_cant": "continuous time", "anchors": ["rosenpass/src/protocol/protocol.rs: active_or_retired_cookie_secrets", "rosenpass/src/protocol/cookies.rs"]}
{"id": "C29", "title": "Wire format round trip", "statement": "Serialising any handshake message and parsing it back yields the same message; parsing accepts exactly byte strings of the type's length, and message types are decoded one-to-one.", "quantifier": "all messages of each type, all byte strings", "why_tests_cant": "for all field contents", "anchors": ["rosenpass/src/msgs.rs: Envelope, InitHello, RespHello, InitConf, EmptyData, CookieReply, MsgType"]}
{"id": "C30", "title": "increment is addition of one", "statement": "`increment` maps the little-endian number n to n+1 modulo 256^len.", "quantifier": "all byte arrays of all lengths", "why_tests_cant": "infinitely many arrays", "anchors": ["constant-time/src/increment.rs: increment"]}
{"id": "C31", "title": "compare is integer comparison", "statement": "`compare` returns the sign of the comparison of the two byte arrays as little-endian numbers.", "quantifier": "all pairs of equal-length arrays", "why_tests_cant": "infinitely many arrays", "anchors": ["constant-time/src/compare.rs: compare"]}
{"id": "C32", "title": "xor and memcmp", "statement": "`memcmp` is true iff the slices are equal (also in length); `xor` applied twice is the identity and is commutative.", "quantifier": "all byte slices", "why_tests_cant": "infinitely many", "anchors": ["constant-time/src/memcmp.rs: memcmp", "constant-time/src/xor.rs: xor"]}
{"id": "C33", "title": "Length-prefix framing round trip", "statement": "A message written by the encoder in any number of partial writes and read by the decoder in any number of partial reads (with arbitrary interruptions) is delivered unchanged, and no byte beyond the message is consumed.", "quantifier": "all messages, all chunkings of writes and reads, all buffer sizes that fit", "why_tests_cant": "all schedules of partial I/O", "anchors": ["util/src/length_prefix_encoding/encoder.rs", "util/src/length_prefix_encoding/decoder.rs"]}
{"id": "C34", "title": "Oversized frames are rejected without corruption", "statement": "A frame announcing more bytes than the receive buffer holds is reported as an error, never delivered, and never written past the buffer.", "quantifier": "all headers (2^64), all buffers, all chunkings", "why_tests_cant": "all 64-bit lengths", "anchors": ["util/src/length_prefix_encoding/decoder.rs: message_buffer_mut, next_slice_to_write_to"]}
{"id": "C35", "title": "A frame stream is delivered in order", "statement": "Any sequence of frames sent over one byte stream is received as exactly the same sequence, whatever the chunking.", "quantifier": "all message sequences and chunkings", "why_tests_cant": "all schedules", "anchors": ["util/src/length_prefix_encoding/decoder.rs: read_from_stdio, clear"]}
{"id": "C36", "title": "Files are loaded exactly", "statement": "Loading a fixed-size key accepts a file iff it has exactly the right length and then yields exactly its bytes, independently of short reads.", "quantifier": "all files and all read chunkings", "why_tests_cant": "all schedules of reads", "anchors": ["util/src/file.rs: read_exact_to_end, read_slice_to_end", "secret-memory/src/secret.rs: load"]}
{"id": "C37", "title": "Base64 key files round trip", "statement": "store_b64 followed by load_b64 yields the same key whenever the scratch buffer is large enough.", "quantifier": "all keys of all lengths", "why_tests_cant": "all keys", "anchors": ["util/src/b64.rs", "secret-memory/src/secret.rs: load_b64, store_b64"]}
{"id": "C38", "title": "API messages parse unambiguously", "statement": "Each API request/response type is identified by its 16-byte tag, tags are pairwise distinct, parsing from a prefix (suffix) uses the tag at the start of that prefix (suffix) and yields the same message that was serialised.", "quantifier": "all byte strings and messages", "why_tests_cant": "all byte strings", "anchors": ["rosenpass/src/api/boilerplate/request_ref.rs", "rosenpass/src/api/boilerplate/response_ref.rs", "rosenpass/src/api/boilerplate/message_type.rs"]}
{"id": "C39", "title": "API connections answer every request once and in order", "statement": "Over one connection the k-th well-formed request is answered by exactly one response of the matching type, in order, regardless of how reads and writes are split; a malformed request does not affect other connections or the key exchange.", "quantifier": "all request sequences and I/O schedules", "why_tests_cant": "all schedules", "anchors": ["rosenpass/src/api/mio/connection.rs: MioConnection::poll"]}
{"id": "C40", "title": "API connections are dispatched to the right slot", "statement": "An I/O event of a connection is dispatched to that connection, whatever connections were opened or closed before.", "quantifier": "all histories of connects, disconnects and events", "why_tests_cant": "all histories", "anchors": ["rosenpass/src/api/mio/manager.rs: MioManager::add_connection, poll_particular"]}
{"id": "C41", "title": "The key pair can be supplied exactly once", "statement": "SupplyKeypair succeeds at most once per process; afterwards it answers KEYPAIR_ALREADY_SUPPLIED and never changes the server's keys; file descriptors attached to a request are consumed iff the request claims them.", "quantifier": "all sequences of API requests with any fds and file contents", "why_tests_cant": "all histories", "anchors": ["rosenpass/src/api/api_handler.rs: supply_keypair", "util/src/build.rs: ConstructionSite"]}
{"id": "C42", "title": "ConstructionSite state machine", "statement": "A construction site goes Builder -> Product at most once, never back; erecting a product twice is reported and does not change it.", "quantifier": "all sequences of operations", "why_tests_cant": "all histories", "anchors": ["util/src/build.rs: ConstructionSite::erect"]}
{"id": "C43", "title": "Broker messages round trip", "statement": "A SetPsk request built from any peer id, PSK and interface name of at most 255 bytes is decoded by the broker server to the same values; longer names are refused before anything is sent.", "quantifier": "all peer ids, PSKs, interface names", "why_tests_cant": "all strings", "anchors": ["wireguard-broker/src/api/msgs.rs", "wireguard-broker/src/api/config.rs", "wireguard-broker/src/api/client.rs", "wireguard-broker/src/api/server.rs"]}
{"id": "C44", "title": "Broker errors are reported faithfully", "statement": "The result the client sees is the result of the broker operation: success iff the PSK was set, and the error class is preserved.", "quantifier": "all broker results", "why_tests_cant": "all error paths", "anchors": ["wireguard-broker/src/api/server.rs: handle_message", "wireguard-broker/src/brokers/netlink.rs"]}
{"id": "C45", "title": "Broker server ignores malformed requests", "statement": "A request with an unknown type byte or wrong length never reaches the inner broker.", "quantifier": "all byte strings", "why_tests_cant": "all byte strings", "anchors": ["wireguard-broker/src/api/server.rs: handle_message"]}
{"id": "C46", "title": "All resolved addresses of a peer are tried", "statement": "While no address of a peer is known to work, every resolved address is eventually tried on some socket.", "quantifier": "all address lists, socket lists and send outcomes", "why_tests_cant": "all schedules of failures", "anchors": ["rosenpass/src/app_server.rs: HostPathDiscoveryEndpoint::send_scouting"]}
{"id": "C47", "title": "Isolated failures do not stop the daemon", "statement": "The daemon gives up only after more than ten consecutive failures; a successful iteration resets the count.", "quantifier": "all sequences of successes and failures", "why_tests_cant": "all infinite schedules", "anchors": ["rosenpass/src/app_server.rs: AppServer::event_loop"]}
{"id": "C48", "title": "Peer tables stay aligned", "statement": "After every add_peer, successful or not, the application peer list and the protocol peer list have the same length and corresponding entries, and further add_peer calls do not panic.", "quantifier": "all sequences of add_peer calls and host-name resolution outcomes", "why_tests_cant": "all histories", "anchors": ["rosenpass/src/app_server.rs: AppServer::add_peer"]}
{"id": "C49", "title": "Broker handles are unique", "statement": "Every registered broker keeps its handle until it is unregistered and two registered brokers never share a handle.", "quantifier": "all sequences of register/unregister", "why_tests_cant": "all histories", "anchors": ["rosenpass/src/app_server.rs: register_broker, unregister_broker"]}
{"id": "C50", "title": "Load detection", "statement": "At any time the server is in the under-load state exactly if, in its last complete measuring period (each longer than 500 ms), more polls found events at once than had to wait, or it never came to poll because there was always something left to read; incoming messages are processed through the cookie path exactly while it is under load.", "quantifier": "all sequences of poll intervals", "why_tests_cant": "all schedules", "anchors": ["rosenpass/src/app_server.rs: try_recv, DoSOperation"]}
{"id": "C51", "title": "Keys are output exactly on exchange and erased on expiry", "statement": "When an exchange with a peer completes and the I/O of that round succeeds, the key written to the peer's key file and handed to its broker is the OSK of that peer; on expiry a fresh random key is; no key is output otherwise, no other file changes, and the reported reason matches.", "quantifier": "all event sequences", "why_tests_cant": "all histories", "anchors": ["rosenpass/src/app_server.rs: output_key, event_loop_without_error_handling"]}
{"id": "C52", "title": "Endpoint byte encoding is injective", "statement": "Two distinct (socket, address) pairs have distinct host identifications, where an IPv4 address counts as the IPv4-mapped IPv6 address and the IPv6 flow label is ignored.", "quantifier": "all socket addresses", "why_tests_cant": "all addresses", "anchors": ["rosenpass/src/app_server.rs: SocketBoundEndpoint::to_bytes"]}
{"id": "C53", "title": "Argument parsing never panics and accepts every documented combination", "statement": "`parse_args` returns Ok or Err for every argument list; any combination of documented peer options given once each is accepted and stored in the peer.", "quantifier": "all argument lists", "why_tests_cant": "infinitely many lists", "anchors": ["rosenpass/src/config.rs: Rosenpass::parse_args"]}
{"id": "C54", "title": "Validated configurations can output keys", "statement": "If `validate` succeeds, every peer has a key output file or a WireGuard device and peer, and its OSK organisation and label are both set or both unset.", "quantifier": "all configurations", "why_tests_cant": "all combinations", "anchors": ["rosenpass/src/config.rs: Rosenpass::validate, org_and_label"]}
{"id": "C55", "title": "rp command line parsing", "statement": "`rp` accepts exactly one command, peers are kept in order with their own options, and unknown options are rejected.", "quantifier": "all argument lists", "why_tests_cant": "infinitely many lists", "anchors": ["rp/src/cli.rs: Cli::parse, ExchangeOptions::parse, ExchangePeer::parse"]}
{"id": "C56", "title": "Key generation never destroys keys and survives crashes", "statement": "Generating keys never overwrites existing key files; after a crash at any point a re-run leaves a complete matching key pair.", "quantifier": "all initial directory states and all crash points", "why_tests_cant": "all crash points", "anchors": ["rp/src/key.rs: genkey", "rosenpass/src/cli.rs: GenKeys, generate_and_save_keypair"]}
{"id": "C57", "title": "Secret buffers are handed out zeroed and released zeroed", "statement": "A freshly created Secret is all-zero whatever secrets were dropped before, and memory returned to the pool contains no secret bytes.", "quantifier": "all histories of allocations, writes and drops, all sizes", "why_tests_cant": "all histories", "anchors": ["secret-memory/src/secret.rs: SecretMemoryPool, Secret"]}
{"id": "C58", "title": "Secret files are not readable by others", "statement": "Files created by store_secret have mode 0600 at all times during and after the call.", "quantifier": "all prior file-system states", "why_tests_cant": "depends on prior state", "anchors": ["util/src/file.rs: fopen_w", "secret-memory/src/secret.rs: store_secret"]}
{"id": "C59", "title": "Cleanup jobs are awaited", "statement": "When a janitor scope ends, all cleanup jobs spawned in it, including jobs spawned by other cleanup jobs, have finished.", "quantifier": "all schedules of tasks", "why_tests_cant": "all schedules", "anchors": ["util/src/tokio/janitor.rs"]}
{"id": "C60", "title": "File-descriptor passing preserves order and bounds", "statement": "Descriptors queued for sending are received in order, at most MAX_FDS are held at a time, and on a claim failure none of the batch stays open.", "quantifier": "all queues, all partial writes and failures", "why_tests_cant": "all schedules", "anchors": ["util/src/mio/uds_send_fd.rs", "util/src/mio/uds_recv_fd.rs"]}
{"id": "C61", "title": "Non-blocking I/O helpers classify errors correctly", "statement": "`nonblocking_handle_io_errors` retries Interrupted forever, maps WouldBlock to None and passes every other result through unchanged.", "quantifier": "all finite sequences of outcomes", "why_tests_cant": "all schedules", "anchors": ["util/src/io.rs"]}
{"id": "C62", "title": "Slice copy helpers", "statement": "copy_slice and friends copy exactly the documented part and report a size mismatch instead of truncating, for every length.", "quantifier": "all slices", "why_tests_cant": "all lengths", "anchors": ["to/src/ops.rs", "util/src/mem.rs"]}
{"id": "C63", "title": "Base64 key files are only accepted when they hold a whole key", "statement": "`load_b64` succeeds only when the file is the base64 encoding of exactly as many bytes as the value has; a truncated key file (for instance one left by a crash during store) is an error.", "quantifier": "all file contents, all key sizes, all read schedules and all crash points of a store", "why_tests_cant": "all contents and crash points", "anchors": ["secret-memory/src/secret.rs: LoadValueB64", "secret-memory/src/public.rs: LoadValueB64", "util/src/b64.rs: b64_decode"]}
{"id": "C64", "title": "Finished initiator handshakes hold no chaining key", "statement": "Once the initiator has derived its session keys (it has processed RespHello and waits for the confirmation), the chaining key of the handshake is erased from the handshake record.", "quantifier": "all histories of API calls, all messages, all clocks and random values", "why_tests_cant": "all histories", "anchors": ["rosenpass/src/protocol/protocol.rs: handle_resp_hello, HandshakeState::erase"]}
{"id": "C65", "title": "Polling starves no peer", "statement": "While a peer has something due (a key to delete, an initiation or a retransmission to send), among any as many polls as there are peers one reports an event of that peer, whatever the other peers do.", "quantifier": "all histories, all numbers of peers, all interleavings of polls with other calls", "why_tests_cant": "all schedules", "anchors": ["rosenpass/src/protocol/protocol.rs: CryptoServer::poll, peer_ptrs_off"]}
{"id": "C66", "title": "Building the protocol server is exact", "statement": "Building from the collected parameters succeeds exactly when a key pair was supplied and no peer was added twice; the resulting server has exactly the peers in the order they were added, numbered as announced when they were added.", "quantifier": "all builders, all sequences of added peers, all random values", "why_tests_cant": "all sequences of additions", "anchors": ["rosenpass/src/protocol/build_crypto_server.rs: BuildCryptoServer::build, add_peer", "util/src/build.rs: ConstructionSite::erect"]}
{"id": "C67", "title": "Every address is tried from every local socket during discovery", "statement": "While host-path discovery runs, every combination of candidate address and local socket is eventually used to send a handshake message.", "quantifier": "all address lists, all numbers of sockets, all start states and all send outcomes", "why_tests_cant": "all numbers of addresses and sockets", "anchors": ["rosenpass/src/app_server.rs: HostPathDiscoveryEndpoint::send_scouting, insert_next_scout_offset"]}
{"id": "C68", "title": "Restarting discovery keeps every known address", "statement": "When a peer's session expires and discovery is restarted, the candidate addresses are the last used address(es) followed by the configured ones, each once, and discovery starts with the last used one.", "quantifier": "all endpoints and address lists", "why_tests_cant": "all address lists", "anchors": ["rosenpass/src/app_server.rs: Endpoint::discovery_from_multiple_sources"]}
{"id": "C69", "title": "The event loop never panics", "statement": "No round of the event loop panics, whatever is received and whatever I/O fails.", "quantifier": "all histories of the application (rounds, added peers, sockets and brokers, supplied keys), all received datagrams, clocks, random values and I/O outcomes", "why_tests_cant": "all histories and all datagrams", "anchors": ["rosenpass/src/app_server.rs: AppServer::event_loop_without_error_handling, output_key, set_psk, tx_maybe_with, send_scouting"]}
{"id": "C70", "title": "No key event is lost when I/O fails", "statement": "If a round in which a key is exchanged or expires fails because of an I/O error, the key is output in a later round once I/O works again.", "quantifier": "all applications, all rounds, all combinations of I/O failures", "why_tests_cant": "all failure points", "anchors": ["rosenpass/src/app_server.rs: AppServer::event_loop_without_error_handling, output_key"]}
{"id": "C71", "title": "The server does not sleep while a datagram waits", "statement": "Receiving never blocks while a datagram is waiting at one of the listen sockets.", "quantifier": "all histories of arrivals, signals and receive calls, all readiness events (including spurious ones)", "why_tests_cant": "all interleavings of arrivals and calls", "anchors": ["rosenpass/src/app_server.rs: AppServer::try_recv, perform_mio_poll_and_register_events"]}
{"id": "C72", "title": "Datagrams reach the protocol in order, once, and without omission", "statement": "For each listen socket the datagrams handed to the protocol are exactly the ones that arrived, in order, up to those still waiting; a receive call comes back empty-handed only if nothing is waiting.", "quantifier": "all histories of arrivals, signals and receive calls, all I/O failures", "why_tests_cant": "all interleavings", "anchors": ["rosenpass/src/app_server.rs: AppServer::try_recv, try_recv_from_listen_socket"]}
{"id": "C73", "title": "No listen socket is starved", "statement": "A datagram waiting at one listen socket is eventually handed to the protocol, whatever arrives at the other sockets.", "quantifier": "all histories of arrivals and receive calls", "why_tests_cant": "all infinite schedules", "anchors": ["rosenpass/src/app_server.rs: AppServer::try_recv"]}
{"id": "C74", "title": "Keys sent through the broker socket are set in order and unaltered", "statement": "The keys the privileged broker sets are a prefix of the keys the client was asked to set, in order, unaltered, whatever the splits, refusals and failures of the socket; setting a key never panics.", "quantifier": "all sequences of calls of the client, all I/O outcomes, all ways the byte stream is cut", "why_tests_cant": "all I/O outcomes", "anchors": ["wireguard-broker/src/api/client.rs: BrokerClient::set_psk, poll_response", "wireguard-broker/src/brokers/mio_client.rs: MioBrokerClient"]}
{"id": "C75", "title": "Broker answers go to the client that asked", "statement": "With any number of clients of the socket handler, each client gets the answers to its own requests, in the order of its requests, and its requests are handled in the order it sent them, each once.", "quantifier": "all interleavings of clients, tasks and the broker process", "why_tests_cant": "all schedules", "anchors": ["wireguard-broker/src/bin/socket_handler.rs: worker, listen_for_clients, on_accept"]}
{"id": "C76", "title": "A broker client cannot block the others", "statement": "Whatever one client of the socket handler sends, the requests of the other clients are answered.", "quantifier": "all interleavings, all messages", "why_tests_cant": "all schedules", "anchors": ["wireguard-broker/src/bin/socket_handler.rs: worker", "wireguard-broker/src/bin/priviledged.rs: main"]}
{"id": "C77", "title": "The privileged broker handles messages in order", "statement": "For every byte stream on its standard input, the privileged broker process handles exactly the complete messages in it, in order, and writes exactly their answers.", "quantifier": "all byte streams", "why_tests_cant": "all byte streams", "anchors": ["wireguard-broker/src/bin/priviledged.rs: main"]}
{"id": "C78", "title": "rp pubkey exports the public halves of the keys it read, and only those", "statement": "When `rp pubkey` reports success, the directory it created holds the X25519 public key of the WireGuard secret key that was read and a byte-for-byte copy of the post-quantum public key; no other file is created, changed or removed, whatever happens; an existing output directory is refused unchanged. After a successful `rp genkey`, the exported keys are those of the generated pair.", "quantifier": "all file systems, paths, umasks, keys, I/O failures and crash points", "why_tests_cant": "all failures and crash points", "anchors": ["rp/src/key.rs: pubkey", "rp/src/key.rs: genkey"]}
{"id": "C79", "title": "A validated configuration starts, with exactly the configured peers", "statement": "Starting never panics. Starting a configuration that passed validation succeeds as long as the operating system grants sockets, API sources and the broker; the server then runs with exactly the configured peers, in order, each with the keys, protocol version, domain separator, output file, WireGuard peer and endpoint it was configured with; if it was started without a key pair, this is so from the moment a key pair is supplied.", "quantifier": "all configurations, all contents of the files, all outcomes of the name service and the operating system", "why_tests_cant": "all configurations and environments", "anchors": ["rosenpass/src/cli.rs: CliArgs::event_loop", "rosenpass/src/app_server.rs: AppServer::new, add_peer", "rosenpass/src/config.rs: Rosenpass::validate"]}
{"id": "C80", "title": "The server listens where it was told to", "statement": "With listen addresses configured the server listens on exactly those, in order, or does not start; without, it listens on the IPv6 wildcard address if possible and on the IPv4 wildcard address if the former does not serve IPv4; it never runs without a socket.", "quantifier": "all lists of addresses and all outcomes of bind", "why_tests_cant": "all outcomes of the operating system", "anchors": ["rosenpass/src/app_server.rs: AppServer::new"]}
{"id": "C81", "title": "Secrets are independent values", "statement": "Every operation on secrets (creating, filling, cloning, overwriting, zeroizing, dropping) has exactly its documented effect on the named secret and none on any other secret, and panics only if no memory policy was chosen, a slice of the wrong length is given, or a later policy contradicts the first.", "quantifier": "all histories of operations on any number of threads, all sizes", "why_tests_cant": "all histories; recycled memory makes secrets share buffers over time", "anchors": ["secret-memory/src/secret.rs: Secret, SecretMemoryPool", "secret-memory/src/policy.rs"]}
{"id": "C82", "title": "Secret memory is never shared, used after free or given to the wrong allocator", "statement": "At every moment each block of secret memory belongs to one secret, lies in one place of one pool or was given back, once, to the allocator it came from, which is the one of the chosen policy; the policy never changes once it was chosen.", "quantifier": "all histories of operations on any number of threads", "why_tests_cant": "all histories", "anchors": ["secret-memory/src/alloc/mod.rs: SecretAlloc", "secret-memory/src/secret.rs: SecretMemoryPool::take, SecretMemoryPool::release"]}
{"id": "C83", "title": "Keys handed to `wg` go to the right peer and never appear on a command line", "statement": "Setting a key with the native broker runs `wg set` with exactly the configured interface, peer and extra parameters and hands the key over on standard input; the key is never part of the arguments; success is reported only if `wg` accepted the key.", "quantifier": "all configurations, keys, extra parameters and failures", "why_tests_cant": "all inputs and failures", "anchors": ["wireguard-broker/src/brokers/native_unix.rs: NativeUnixBroker::set_psk"]}
{"id": "C84", "title": "Broker configurations survive serialisation", "statement": "Extra parameters (any strings, including empty ones) and peer ids come out of their encodings exactly as they were given; anything that is not a complete peer id is refused.", "quantifier": "all lists of strings and all peer ids", "why_tests_cant": "all inputs", "anchors": ["wireguard-broker/src/brokers/native_unix.rs: NativeUnixBrokerConfigBaseBuilder, NativeUnixBrokerConfig"]}
{"id": "C85", "title": "rp touches no network device but its own, and removes that", "statement": "`rp exchange` refuses to start if a device of the requested name exists, makes requests about no device except the one it created, configures that with the secret key and port, and has removed it when it ends, whatever the reason.", "quantifier": "all interleavings with other processes' changes of the kernel's devices, all failures of requests", "why_tests_cant": "all interleavings and failure points", "anchors": ["rp/src/exchange.rs: WireGuardDevice, WireGuardDeviceImpl, exchange"]}
{"id": "C86", "title": "Length-prefix buffers check every length and position", "statement": "In any sequence of calls, the encoder takes a message length or writing position exactly if the message fits the buffer and the position lies within the frame, and refuses any other with an error that changes nothing; neither encoder nor decoder ever panics, and what they say is written, left or received adds up to the frame.", "quantifier": "all buffers, all sequences of public calls and arguments, all schedules of partial I/O", "why_tests_cant": "all call sequences and argument values", "anchors": ["util/src/length_prefix_encoding/encoder.rs: LengthPrefixEncoder", "util/src/length_prefix_encoding/decoder.rs: LengthPrefixDecoder"]}
{"id": "C87", "title": "rp exchange sets up what its options say", "statement": "`rp exchange` runs a server with exactly the configured peers (keys, versions and endpoints as given, a pre-shared key exactly if the file is there, keys handed to the right WireGuard peer of its device together with endpoint, keepalive and allowed addresses), WireGuard uses the port after Rosenpass's on both sides, addresses and routes are set as configured, and whatever cannot be done is reported as an error.", "quantifier": "all options, file contents, and failures of the operating system", "why_tests_cant": "all inputs and failure points", "anchors": ["rp/src/exchange.rs: exchange, ExchangeOptions, ExchangePeer"]}
{"id": "C88", "title": "Datagrams go only where the peer is", "statement": "A datagram is sent only as the answer to a message just accepted, to where that came from, or, when an initiation or retransmission to a peer is due, to an address configured for that peer or one from which it completed an exchange; due messages are sent whenever the peer has an address; and only a completed exchange or a due new handshake changes which address is used.", "quantifier": "all histories of the application, all received datagrams and their sources, all failures of sending", "why_tests_cant": "all histories and network behaviours", "anchors": ["rosenpass/src/app_server.rs: AppServer::event_loop_without_error_handling, AppPeer::endpoint, Endpoint"]}
{"id": "C89", "title": "The daemon stops on the termination signal", "statement": "The event loop returns successfully exactly when the termination signal is reported, and it looks for it in every round in which the protocol server has nothing to do.", "quantifier": "all states of the application, all outcomes of a round", "why_tests_cant": "all states", "anchors": ["rosenpass/src/app_server.rs: AppServer::event_loop, AppServer::poll"]}
{"id": "C90", "title": "Each API request has exactly its documented answer and effect", "statement": "Supplying a key pair, a listen socket or a broker is answered with the documented status byte for every combination of descriptors, file contents and present state, and changes exactly what the status says; an error status means that nothing was changed.", "quantifier": "all application states, all descriptors and contents of the files behind them, all failures of registration", "why_tests_cant": "all states and inputs", "anchors": ["rosenpass/src/api/api_handler.rs: ApiHandler", "rosenpass/src/protocol/build_crypto_server.rs: BuildCryptoServer"]}
{"id": "C91", "title": "API clients cannot bring down the daemon by connecting and disconnecting", "statement": "Whatever API connections were opened, used and closed before, a new client gets a working connection, and no event on an API socket makes the daemon panic.", "quantifier": "all histories of listeners, connections, received bytes and polls", "why_tests_cant": "all histories", "anchors": ["rosenpass/src/api/mio/manager.rs: MioManager", "rosenpass/src/api/mio/connection.rs: MioConnection::should_close"]}
{"id": "C92", "title": "Who completes a handshake, completes it with the configured peer (mutual agreement)", "statement": "With ideal cryptography and an attacker who controls the network, reads, forges, replays and mixes all messages of any number of servers and sessions and may obtain secrets: if an initiator accepts a RespHello while the pre-shared key, or the peer's static key and the coins used for it, are unknown to the attacker, then the peer's server received exactly this InitHello, meant this initiator, has the same pre-shared key, and sent this answer. If a responder accepts an InitConf whose biscuit key is not compromised, it made the biscuit itself, and (if the pre-shared key or the initiator's static key is secret) the initiator sent exactly this InitConf, after exactly this exchange of messages, and has the same session. If an initiator accepts the acknowledgement, the responder has the session. With the private key of a server alone, nobody can be impersonated to it.", "quantifier": "all networks of servers and configurations, all interleavings of any number of handshakes, all active attackers, all choices of compromised secrets and times of compromise", "why_tests_cant": "all interleavings and all attackers; a test can only play one attack", "anchors": ["rosenpass/src/protocol/protocol.rs: handle_initiation, handle_init_hello, handle_resp_hello, handle_init_conf, handle_resp_conf, HandshakeState, store_biscuit, load_biscuit"]}
{"id": "C93", "title": "Output keys stay secret, also after later compromise (forward secrecy)", "statement": "With ideal cryptography: the attacker knows a key exported from a session between honest servers if and only if he was given that key, or the biscuit key that the responder used for it, or all of: the pre-shared key, a secret for each of the two encapsulations to the static keys, and one of the ephemeral secrets. So the static keys of both sides and the pre-shared key, all obtained later, do not reveal earlier keys; any one of pre-shared key, initiator's static key, responder's static key and ephemeral key suffices for secrecy.", "quantifier": "all networks, all interleavings, all active attackers, all sets of compromised secrets, all exported domain separators", "why_tests_cant": "all attackers and histories", "anchors": ["rosenpass/src/protocol/protocol.rs: HandshakeState, mix, encrypt_and_mix, encaps_and_mix, decaps_and_mix, store_biscuit, osk"]}
{"id": "C94", "title": "Different handshakes have different output keys", "statement": "With ideal cryptography: two sessions of initiators have the same output key only if they are the same handshake of the same server with the same peer; two sessions of responders only if they come from the same InitConf at the same server for the same peer; a session of an initiator and one of a responder only if they belong together. This needs no secrecy at all.", "quantifier": "all networks, all runs with any attacker and any compromised secrets, all pairs of sessions", "why_tests_cant": "all pairs of sessions in all runs", "anchors": ["rosenpass/src/protocol/protocol.rs: HandshakeState, osk"]}
{"id": "C95", "title": "AEAD calls and their buffers", "statement": "`encrypt` into a buffer exactly 16 bytes longer than the plaintext (40 with the nonce in the ciphertext) succeeds and `decrypt` of the result into a buffer of the plaintext's length returns it, whatever the buffers held before; with a buffer of any other length the call returns `InvalidLengths`, writes nothing and does not panic; a failing decryption never leaves decrypted data in the buffer.", "quantifier": "all AEADs with the stated functional laws, all keys, nonces, associated data, plaintexts and buffers", "why_tests_cant": "for all buffer lengths and contents", "anchors": ["cipher-traits/src/primitives/aead.rs: Aead, AeadWithNonceInCiphertext", "ciphers/src/subtle/rust_crypto/chacha20poly1305_ietf.rs", "ciphers/src/subtle/rust_crypto/xchacha20poly1305_ietf.rs"]}
{"id": "C96", "title": "Serialized keys", "statement": "Serializing a `Secret`, `Public` or `PublicBox` of any size with serde and deserializing the string gives the same key; a string deserializes to a key of N bytes exactly if it is the serialization of that key (no other size, no other spelling).", "quantifier": "all sizes, all keys, all strings", "why_tests_cant": "for all strings", "anchors": ["secret-memory/src/serialization.rs"]}
{"id": "C97", "title": "Two daemons configured for each other put out the same key", "statement": "If two running daemons have each other as peer (matching static keys, pre-shared key, protocol version, domain separator) and one of them starts a handshake, then, as the four datagrams are delivered (in whatever rounds of the two event loops, with anything else happening in between that does not replace the handshake, and from whatever addresses), every datagram is answered to the address it came from, both daemons write the same 32-byte key to the file of the right peer, announce it under the right peer id, hand it to the broker for the right interface and peer, remember the address, and continue; the acknowledgement ends the handshake and leaves the key in force.", "quantifier": "all lawful suites, all pairs of configured daemons in any reachable state, all interleavings with other rounds, all addresses, all randomness", "why_tests_cant": "all states and all interleavings of two event loops; a test runs one exchange", "anchors": ["rosenpass/src/app_server.rs: AppServer::event_loop_without_error_handling, output_key, tx_maybe_with, poll", "rosenpass/src/protocol/protocol.rs: CryptoServer::{initiate_handshake,handle_msg,osk,poll}"]}
{"id": "C98", "title": "Type-level integers convert to the constants they denote", "statement": "typenum2const! gives, for every type-level integer and every supported integer type with the number in its range, the constant that denotes that number, including the smallest negative number of a signed type; in general it gives the number modulo 2^width, and the only conversion that does not compile is one of a negative number to an unsigned type. A number that does not fit is truncated silently instead of being refused.", "quantifier": "all type-level integers of every number of bits, all target widths above one bit, signed and unsigned", "why_tests_cant": "the unit test enumerates constants near powers of two", "anchors": ["util/src/typenum.rs: typenum2const, IntoConst, ConstLshift, ConstAdd, ConstApplyNegSign"]}
{"id": "C99", "title": "A handshake completes although messages are lost, repeated or delayed and third parties interfere", "statement": "After initiate_handshake, as long as the other calls at the initiator leave this handshake alone (no new handshake with that peer, no expiry after 180 s, no authentic RespHello or InitConf of that very peer), retransmit_handshake gives the InitHello again (same bytes up to the cookie), the responder answers any such copy, and the initiator accepts the answer. From then on retransmit_handshake gives the InitConf again, byte for byte. The responder accepts it after any calls made within 300 s of its answer that accept no InitConf of that peer, and both sides then have the same key. Every further copy of the InitConf is answered with the same EmptyData (up to the cookie), without change of state, as long as the answer is cached; and the initiator accepts any of these answers and ends the handshake with the same key.", "quantifier": "all mutually registered servers in states reached by any history, all random values with unused session ids, all times, all histories of other calls in between (unbounded), every choice of the copy that arrives", "why_tests_cant": "needs an induction over arbitrary histories of calls between any two of the four messages, on both sides", "anchors": ["rosenpass/src/protocol/protocol.rs: retransmit_handshake, handle_msg, poll, IniHsPtr::store_msg_for_retransmission, apply_retransmission"]}
{"id": "C100", "title": "A cookie vouches for one message from one address, a seal for one message to one receiver", "statement": "If, under load, two InitHellos carrying the same cookie are both answered with a RespHello (by any servers, at any times, from any addresses), they are the same message from the same address checked against the same secret, or the hash collides on 16 bytes. If two messages carrying the same seal are both processed successfully, the two servers have the same public key and the messages agree in every byte before the seal, or the hash collides on 16 bytes. If a CookieReply issued for a message is accepted, it is taken for a handshake with the issuer's public key of which the message last sent carries the seal of that very message, or the hash collides, or the encrypted cookie opens in two ways.", "quantifier": "all servers in any states, all byte strings, addresses, times and random values", "why_tests_cant": "tests can only show that sampled modifications are rejected; the claim covers every byte of every message", "anchors": ["rosenpass/src/protocol/protocol.rs: seal, seal_cookie, check_seal, handle_msg_under_load, handle_cookie_reply", "rosenpass/src/hash_domains.rs: mac, cookie, cookie_value, cookie_key"]}
{"id": "C101", "title": "Secret memory comes from and goes back to one allocator, aligned, and failures leak nothing", "statement": "A request to one of the two secret allocators succeeds exactly if the system has memory and the requested alignment can be had for a block that ends at a page boundary; then the block has the requested size and alignment and overlaps no other block. A request that is refused leaves no block behind. Every Rust type's layout (size a multiple of the alignment, alignment up to a page) is served whenever there is memory. Over any history of boxes made and dropped, with either allocator, the boxes held are exactly the live blocks: none is lost, none freed twice, none given to the other allocator.", "quantifier": "all layouts, all placements the system may choose, all histories of allocations, failures and drops with both allocators", "why_tests_cant": "the tests try five sizes with alignment one and never fail an allocation", "anchors": ["secret-memory/src/alloc/mod.rs: SecretAlloc", "secret-memory/src/alloc/memsec/malloc.rs: MallocAllocator", "secret-memory/src/alloc/memsec/memfdsec.rs: MemfdSecAllocator"]}
{"id": "C102", "title": "Typed views of buffers cover exactly the bytes they should", "statement": "zk_parse, zk_parse_prefix and zk_parse_suffix give a view exactly if the slice has (at least) the size of the type and the bytes in question are aligned for it; the view is the whole slice, its first or its last bytes. Splitting loses no byte. A zeroized view reads as zeros and no byte outside it is changed. If a zeroized view is refused for lack of room, prefix and suffix leave the buffer alone; if refused for alignment, or by zk_zeroized at all, the bytes are wiped nevertheless. Borrowing from a view never panics.", "quantifier": "all buffers, addresses, slices, sizes and alignments", "why_tests_cant": "the doctests use a few fixed buffers", "anchors": ["util/src/zerocopy/ref_maker.rs: RefMaker", "util/src/zerocopy/zerocopy_slice_ext.rs: ZerocopySliceExt, ZerocopyMutSliceExt", "util/src/zerocopy/zerocopy_ref_ext.rs: emancipate, emancipate_mut", "util/src/zeroize/zeroized_ext.rs: zeroized"]}
{"id": "C103", "title": "Results written to a destination: all calling styles agree, errors discard the destination", "statement": "For every function that writes to a destination: to(), to_this, to_value, collect and their beside forms run it once on the given or default destination and return what it left there and what it returned; they panic exactly if it does. The condensed forms return the destination on success and only the error otherwise. Copying slices through them gives exactly the source, or panics (copy_slice) or reports failure (try_copy_slice) on a length mismatch; collecting into a Vec panics for every non-empty source.", "quantifier": "all destination functions, storage types, sources and destinations", "why_tests_cant": "the doctests show one call of each style", "anchors": ["to/src/to/to_trait.rs: To", "to/src/to/to_function.rs: to", "to/src/to/beside.rs: Beside", "to/src/to/condense.rs: CondenseBeside", "to/src/ops.rs: copy_slice, try_copy_slice, copy_slice_least, try_copy_slice_least_src"]}
{"id": "C104", "title": "A connection of the API server is given back when its client hangs up", "statement": "When a client of the API socket closes its end, the server eventually closes the connection and reuses its slot, so that the number of connections is bounded by the number of clients connected at the same time. (False: the end of the stream is treated like 'nothing to read yet'; every client that ever connected keeps its connection, socket and two buffers of secret memory until the daemon ends.)", "quantifier": "all histories of clients connecting, sending incomplete or no requests and hanging up, all numbers of polls", "why_tests_cant": "the API integration tests make one connection each", "anchors": ["rosenpass/src/api/mio/connection.rs: recv, should_close", "rosenpass/src/api/mio/manager.rs: poll_particular_connection, add_connection"]}
{"id": "C105", "title": "An initiated handshake starts at most one session", "statement": "Once a server accepted a RespHello, it accepts no further RespHello for the same session id (in particular not the same packet again), whatever messages, timers and other handshakes come in between, unless it starts a new handshake that draws the same session id. So an attacker cannot make the initiator start a session twice from one exchange.", "quantifier": "all server states reachable with fresh session ids, all histories between the two deliveries, all later RespHello packets with that session id", "why_tests_cant": "the replay tests of the repository cover InitConf and only with particular schedules; the analysis (02_availability.entry.mpv) claims this for the abstract protocol only", "anchors": ["rosenpass/src/protocol/protocol.rs: handle_resp_hello, lookup_handshake", "analysis/02_availability.entry.mpv"]}
{"id": "C106", "title": "A handshake with a responder under load completes", "statement": "If the responder is under load all the time and answers the first message with a CookieReply, the initiator accepts it, its next retransmission is answered with a RespHello when it comes from the same address while the cookie secret is usable, the initiator accepts that, and the responder, still under load, accepts the confirmation from any address; both sides then have the same key. In between, any other calls may be made on both sides as long as they leave the handshake alone.", "quantifier": "all pairs of servers registered with each other, all histories in between, all times, all randomness, both protocol versions", "why_tests_cant": "composition of the cookie mechanism, the retransmission and the handshake over two machines and all interleavings", "anchors": ["rosenpass/src/protocol/protocol.rs: handle_msg_under_load, handle_cookie_reply, apply_retransmission", "papers/whitepaper.md: Cookie mechanism"]}
{"id": "C107", "title": "Claimed file descriptors: own, masked, never leaked", "statement": "Claiming a file descriptor given by number yields a descriptor of the caller's own for the same open file, close-on-exec and never one of the standard streams, and leaves /dev/null under the old number, so that the same file cannot be claimed twice; a claim that fails leaves all descriptors as they were. Claiming in place keeps the number, close-on-exec, or closes it. Over any history of claims and drops no descriptor leaks or is closed twice.", "quantifier": "all tables of open files, all numbers, all failures of the system calls involved, all histories of claims, opened files and drops", "why_tests_cant": "depends on which descriptors are open and which of four system calls fails", "anchors": ["util/src/fd.rs: claim_fd, claim_fd_inplace, mask_fd, clone_fd_cloexec, clone_fd_to_cloexec, open_nullfd", "util/src/mio/mio.rs: UnixListenerExt, UnixStreamExt"]}
{"id": "C108", "title": "API sockets given by descriptor number", "statement": "If the server starts with API sockets given by number, every number refers to a socket of the right kind that was given to the process, and the server ends up with exactly one listener or connection of its own for each, non-blocking, with the numbers masked; anything else is refused with an error.", "quantifier": "all configurations, all tables of open files, all failures of system calls", "why_tests_cant": "depends on what was open when the process was started and on the order in which descriptors are taken", "anchors": ["rosenpass/src/api/config.rs: apply_to_app_server", "util/src/mio/mio.rs: UnixListenerExt::claim_fd, UnixStreamExt::claim_fd", "rosenpass/src/app_server.rs: add_api_listener, add_api_connection"]}
{"id": "C109", "title": "The broker client flushes its queue in blocking mode", "statement": "When a new request for the WireGuard broker finds the previous one not yet written, the client puts the socket into blocking mode, writes the rest, waiting in the kernel, restores the mode and only then queues the new request.", "quantifier": "all queues, all states of the descriptor table, all answers of the kernel to the writes", "why_tests_cant": "depends on how long the socket takes nothing; a test socket never blocks", "anchors": ["wireguard-broker/src/brokers/mio_client.rs: flush_blocking, flush, send_msg"]}
{"id": "C110", "title": "Identity hiding against an observer of the network", "statement": "Whoever watches the network but has neither the static secret keys nor the biscuit keys nor the random values of the participants cannot tell who talks to whom, even with all public keys and pre-shared keys: two runs with the same visible course (which message answers which, number of the biscuit key) are indistinguishable.", "quantifier": "all sets of servers, keys and peer entries; all interleavings, losses, repetitions and misdeliveries of honest messages, any number of handshakes; all tests an observer can compute", "why_tests_cant": "indistinguishability quantifies over every pair of runs and every computation of the observer; the repository only has a ProVerif test for it (analysis/rosenpass/03_identity_hiding.mpv)", "anchors": ["rosenpass/src/protocol/protocol.rs: handle_initiation, handle_init_hello, handle_resp_hello, handle_init_conf, seal", "rosenpass/src/msgs.rs: Envelope, InitHello, RespHello, InitConf", "analysis/rosenpass/03_identity_hiding.mpv"]}
{"id": "C111", "title": "A responder never locks itself out of its own biscuits", "statement": "Whatever messages a server receives, from whomever and in whatever order, the number of the last biscuit it accepted from each peer stays below the number of the next biscuit it will issue, so a new exchange with any peer still succeeds. The only way around is a message with a biscuit that opens under the server's secret biscuit key although the server never sent it, that is, a forgery of the AEAD.", "quantifier": "all histories of calls of a server of fewer than 2^96 - 1 calls, all messages, peers, protocol versions and times", "why_tests_cant": "The replay counter is raised by messages of the peers, the issue counter by hellos; a lockout would show only after a particular interleaving of many exchanges, including failed and replayed ones.", "anchors": ["rosenpass/src/protocol/protocol.rs: HandshakeState::store_biscuit", "rosenpass/src/protocol/protocol.rs: HandshakeState::load_biscuit", "rosenpass/src/protocol/protocol.rs: CryptoServer::handle_init_conf", "rosenpass/src/protocol/protocol.rs: CryptoServer::new"]}
{"id": "C112", "title": "Two daemons put out the same key although the network loses, repeats and delays datagrams", "statement": "Two running daemons configured for each other (as in C97); one starts a handshake. As long as nothing else ends that handshake (no authentic RespHello/InitConf of that very peer from elsewhere, less than 180 s / 300 s), every round in which a retransmission is due sends the current message of the handshake again to the current address of the peer: InitHello again up to its cookie, later InitConf byte for byte. Whichever copy of whichever message arrives first, from whatever address: the responder answers it, the initiator puts out a key (file, announcement, broker, address), the responder puts out the same key for the right peer, it answers every further copy of InitConf with the same acknowledgement (up to the cookie) without putting out anything again, and any of these acknowledgements ends the handshake at the initiator with the key in force.", "quantifier": "all lawful suites, all pairs of daemons whose protocol servers are in any reachable state, all numbers of lost and repeated datagrams, all rounds in between (unbounded), all addresses, all randomness with unused session ids", "why_tests_cant": "needs an induction over arbitrary histories of both event loops between any two of the messages; a test loses one message at one point", "anchors": ["rosenpass/src/app_server.rs: AppServer::event_loop_without_error_handling, tx_maybe_with, output_key, poll", "rosenpass/src/protocol/protocol.rs: retransmit_handshake, handle_msg, poll"]}
{"id": "C113", "title": "The exit status of `rosenpass` tells whether the command succeeded", "statement": "The process exits with status 0 only if the command did what it is for: gen-config wrote the whole example, gen-keys and keygen wrote the whole pair to the files named by the configuration or the flags, validate found every file to be a loadable configuration that passes the checks; otherwise the status is 1. validate prints one verdict per file, in order.", "quantifier": "all arguments, file systems, home directories, TOML contents, failing or short writes and kill points", "why_tests_cant": "The failing cases are failures of the operating system in the middle of a command; tests only run commands that succeed.", "anchors": ["rosenpass/src/main.rs:main", "rosenpass/src/cli.rs:CliArgs::run"]}
{"id": "C114", "title": "A daemon started from the command line runs what it was told", "statement": "If `rosenpass exchange` or `exchange-config` serves, then with the keys, peers, pre-shared keys, outputs and sockets of the given file or arguments, with the API sockets of the configuration followed by those of the flags, with the broker of the flags; every peer has an output and a daemon without keys has an API; no file but the one to save to has changed. And it serves exactly if what it needs is there.", "quantifier": "all arguments, flags, files, configurations and answers of the operating system", "why_tests_cant": "The space of configurations and flags is infinite and each refusal depends on a combination of them.", "anchors": ["rosenpass/src/cli.rs:CliArgs::run", "rosenpass/src/cli.rs:CliArgs::apply_to_config", "rosenpass/src/cli.rs:get_broker_interface", "rosenpass/src/api/cli.rs:apply_to_config", "rosenpass/src/config.rs:validate", "rosenpass/src/config.rs:check_usefullness"]}
{"id": "C115", "title": "`~` in the paths of a configuration file means the home directory", "statement": "In a configuration file, a path `~` or `~/rest` names the home directory or the file of that name below it; every other path is meant literally; nothing else in the configuration changes.", "quantifier": "all configurations, all paths (with repeated slashes and dots) and all home directories", "why_tests_cant": "Paths are arbitrary strings; the existing test tries a handful.", "anchors": ["rosenpass/src/config.rs:resolve_path_with_tilde", "rosenpass/src/config.rs:Rosenpass::load"]}
{"id": "C116", "title": "A saved configuration starts the same daemon", "statement": "The file written by `rosenpass exchange --config-file` makes `exchange-config` with the same flags behave exactly as the `exchange` that wrote it.", "quantifier": "all argument lists, flags and file systems", "why_tests_cant": "The meaning of a file is compared with that of arguments for all of them.", "anchors": ["rosenpass/src/cli.rs:CliArgs::run", "rosenpass/src/config.rs:Rosenpass::store", "rosenpass/src/config.rs:Rosenpass::load"]}
{"id": "C117", "title": "No command replaces an existing file unless told to", "statement": "gen-config, gen-keys, keygen, validate, exchange and exchange-config leave every existing file as it is unless --force is given, whatever fails and wherever the process is killed.", "quantifier": "all arguments, file systems, failures and kill points", "why_tests_cant": "Requires all failure and kill points of all commands.", "anchors": ["rosenpass/src/cli.rs:CliArgs::run"]}
{"id": "C118", "title": "Log level options set the level the help text names", "statement": "--log-level sets the given level, --verbose sets debug, --quiet sets error; without any of them the level is the default.", "quantifier": "all combinations of the options clap lets through", "why_tests_cant": "The code has no test of it; the claim ranges over all options.", "anchors": ["rosenpass/src/cli.rs:get_log_level"]}
{"id": "C119", "title": "`rp`: the exit status tells success and no existing file is changed", "statement": "Every command of rp leaves every existing file as it is, whatever fails and wherever the process is killed. It exits with 0 or 1, and with 0 only if the command was carried out: genkey made the directory with a complete set of fresh keys, pubkey exported the public keys of the given directory. It never panics on what the user gives it.", "quantifier": "all command lines, file systems, configuration files, failing or short reads and writes and kill points", "why_tests_cant": "Requires all failure and kill points of all commands; tests run commands that succeed in fresh directories.", "anchors": ["rp/src/main.rs:main", "rp/src/main_supported_platforms.rs:main", "rp/src/key.rs:genkey", "rp/src/key.rs:pubkey"]}
{"id": "C120", "title": "Two hosts set up with `rp` as the manual says are linked", "statement": "If on each of two hosts rp genkey made the keys, rp pubkey exported them, the exported directory was copied to the other host, and rp exchange serves there with that directory as a peer (with the same protocol version, and the same psk file or none), then the two daemons are registered with each other under the same pre-shared key, version and output domain; each hands its keys to exactly the WireGuard peer with the other's device key on the device it configured with its own key; and this stays so after any rounds of either event loop.", "quantifier": "all pairs of hosts, keys, directories, options and file systems; all later rounds of both daemons", "why_tests_cant": "It relates two processes, four commands and two file systems, for all keys and all histories afterwards.", "anchors": ["rp/src/main_supported_platforms.rs:main", "rp/src/key.rs:genkey", "rp/src/key.rs:pubkey", "rp/src/exchange.rs:exchange"]}
{"id": "C121", "title": "Message buffers keep nothing of messages that are done with", "statement": "Once a message has been handled (a request) or sent completely (a response or a request with a key), the buffer it went through holds none of its bytes any more: clear and zeroize of the length-prefix coders overwrite everything, an API connection holds nothing but the request being received and the response being sent, and the broker client does not keep a key it has sent.", "quantifier": "all histories of calls, of arriving bytes, of short, failing and interrupted reads and writes, and all contents", "why_tests_cant": "What is left in a buffer is not visible in the behaviour; it has to be zero after every history of partial reads and writes.", "anchors": ["util/src/length_prefix_encoding/decoder.rs:clear", "util/src/length_prefix_encoding/encoder.rs:clear", "util/src/length_prefix_encoding/encoder.rs:zeroize", "rosenpass/src/api/mio/connection.rs:handle_incoming_message", "rosenpass/src/api/mio/connection.rs:flush_write_buffer", "wireguard-broker/src/brokers/mio_client.rs:send_msg"]}
{"id": "C122", "title": "Debug text tells nothing about secrets", "statement": "The text that debug-formatting ({:?}) a server, its peers, handshakes and sessions, or the configuration of a broker call gives, depends on no secret: two values that differ in nothing but secret keys, pre-shared keys, chaining keys, session keys, biscuit keys, cookie secrets and cookies have the same text.", "quantifier": "all pairs of server states that agree on everything that is not secret", "why_tests_cant": "Non-interference relates all pairs of states; a test sees one text, in which a leaked secret looks like any other number.", "anchors": ["rosenpass/src/protocol/protocol.rs:CryptoServer", "rosenpass/src/protocol/protocol.rs:KnownResponse", "rosenpass/src/protocol/cookies.rs:CookieStore", "secret-memory/src/secret.rs:Secret", "wireguard-broker/src/brokers/native_unix.rs:NativeUnixBrokerConfig"]}
{"id": "C123", "title": "Debug text identifies public values", "statement": "Two different public values of the same length (session ids, peer ids, biscuit numbers, which appear in error messages) have different debug texts.", "quantifier": "all pairs of public values of the same length", "why_tests_cant": "It is a statement about all pairs of values.", "anchors": ["secret-memory/src/debug.rs:debug_crypto_array", "secret-memory/src/public.rs:Public"]}
{"id": "C124", "title": "Comparison, xor and increment run in constant time", "statement": "The outcome of every branch and the address of every memory access that compare, memcmp, xor and increment perform depend on the lengths of their arguments only, never on their contents; and the code for which this holds computes the comparison, xor and successor.", "quantifier": "all byte strings of all lengths", "why_tests_cant": "A timing test measures correlations over sample inputs on one machine; constant time is a statement about all pairs of inputs.", "anchors": ["constant-time/src/compare.rs:compare", "constant-time/src/compare.rs:memcmp_le", "constant-time/src/memcmp.rs:memcmp", "constant-time/src/increment.rs:increment", "constant-time/src/xor.rs:xor"]}
{"id": "C125", "title": "Rounding does not disturb the life cycles", "statement": "Time stamps are floating point numbers of seconds. However the arithmetic rounds (in any way IEEE 754 allows): the clock never goes back; an object never gets younger; and as long as a daemon has run for less than 2^31 s, sessions, handshakes, biscuit keys, cookie secrets and cookies change from young to retired to dead at the specified ages (120 s, 130 s, 180 s, 300 s …, less the grace of 2.5 ms), up to 4 microseconds.", "quantifier": "all rounding functions, all time stamps and all readings of the clock", "why_tests_cant": "Rounding depends on the exact time stamps; a test tries a few, shortly after start, when numbers are small and rounding is invisible.", "anchors": ["rosenpass/src/protocol/timing.rs:has_happened", "util/src/time.rs:Timebase", "rosenpass/src/protocol/protocol.rs:MortalExt", "rosenpass/src/protocol/constants.rs:EVENT_GRACE"]}
{"id": "C126", "title": "A key stays in force until it is renewed, and it can be renewed for ever", "statement": "Between two exchanges nothing happens to a session: whatever other calls are made (other peers, forged or stray messages, polls), osk gives the same key, and poll reports nothing about the peer, until the session is 120 s (responder) or 130 s (initiator) old. If the application then polls before 180 s, it is asked to initiate exactly once. The handshake it starts can be completed whatever else is going on; each side uses the old key until the call that gives it the new one, and the new one from then on; and afterwards both sides are again in a state in which all of this holds, so that the key can be renewed any number of times, by either side.", "quantifier": "all numbers of rounds, all interleavings with other calls at both ends, all choices of who initiates, all retransmissions of the first and last message", "why_tests_cant": "An unbounded number of rekeyings with arbitrary traffic between any two calls.", "anchors": ["rosenpass/src/protocol/protocol.rs:CryptoServer::poll", "rosenpass/src/protocol/protocol.rs:CryptoServer::initiate_handshake", "rosenpass/src/protocol/protocol.rs:CryptoServer::handle_msg", "rosenpass/src/protocol/protocol.rs:CryptoServer::osk", "rosenpass/src/protocol/constants.rs:REKEY_AFTER_TIME_INITIATOR"]}
{"id": "C127", "title": "Crossed handshakes end with the same key", "statement": "If two peered servers start a handshake with each other at the same time and every message is delivered, both end up with the same key. (False of the code: if both process the answer to their own first message before the other's third message arrives, both handshakes complete, each side ends with the key of the handshake the other one started, both take themselves for the responder and hence ask for renewal at the same age, so the crossing can repeat for ever. Proved: the exact outcome of a crossing, that it can repeat any number of times, that the keys differ in a concrete run, that one uncrossed renewal heals it, and that the sides agree if a third message overtakes an answer.)", "quantifier": "all lawful primitives, all reachable pairs of peered servers without a pending handshake, all times, random choices and buffers of both sides, any number of rounds", "why_tests_cant": "Needs two handshakes of the same pair interleaved; the tests run one handshake at a time, and the outcome must be known for every state in which it can start.", "anchors": ["rosenpass/src/protocol/protocol.rs: CryptoServer::initiate_handshake, handle_msg, handle_resp_hello, handle_init_conf, PeerPtr::hs, PeerPtr::session, REKEY_AFTER_TIME_RESPONDER"]}
{"id": "C128", "title": "The broker processes end with the daemon", "statement": "If the daemon starts the key broker itself (psk-broker-spawn) and then ends, for whatever reason, the broker's stream ends, so that the broker and its privileged helper end as well. (False of the code: the socket pair is created without the close-on-exec flag, so the broker and its privileged helper inherit the daemon's own end of the pair; as long as the broker runs its stream cannot end, whatever the daemon does, and both processes stay behind. Proved: the counterexample for every continuation; that with the flag the stream does end; and the other direction, which holds: if the broker ends, the helper's input ends, and when the helper has ended too, the daemon's stream ends.)", "quantifier": "all descriptor tables of the daemon with open standard streams, all numbers of the socket pair, all later sequences of opening, duplicating, closing and claiming descriptors, starting children and ending processes", "why_tests_cant": "Which process holds which end of a socket after fork and exec is not visible to a unit test of the daemon, and must be known after every later sequence of events in three processes.", "anchors": ["rosenpass/src/cli.rs: CliArgs::get_broker_socket (BrokerInterface::SocketPair)", "wireguard-broker/src/bin/socket_handler.rs: main, direct_broker_process, on_accept", "util/src/fd.rs: claim_fd"]}
{"id": "C129", "title": "The end of the privileged broker is noticed", "statement": "If the privileged broker process ends (or could not be started), the socket handler that feeds it carries out and answers no further request, leaves no client waiting, closes the connection of every client that asks for something, and ends itself, so that whoever started it can react. (The last part is false of the code if the handler listens for clients: the failure panics in a task of its own, the process goes on, accepts clients for ever and turns each of them away at its first request. Proved: everything else, for both ways of use; that a listening handler stays; that a handler with one given stream ends as soon as it is asked for something; before that nobody notices.)", "quantifier": "all inner brokers and their states, all interleavings of any number of clients, of the tasks of the handler and of the privileged broker, all times at which it ends, both ways to start the handler", "why_tests_cant": "The privileged broker can end between any two steps of any number of concurrent tasks; no test of the repository runs the handler at all.", "anchors": ["wireguard-broker/src/bin/socket_handler.rs: main, direct_broker_process, listen_for_clients, on_accept", "wireguard-broker/src/bin/priviledged.rs: main"]}
{"id": "C130", "title": "Both WireGuard devices get the key that was agreed on", "statement": "When two daemons have put out the key of an exchange for each other (C97, C112) and each of them feeds the preshared key of a peer of a WireGuard device through the broker, then, once the requests are written and worked off, both devices hold that key for that peer; a device always holds the key that the daemon put out last, whatever keys were put out before, whatever other outputs the daemon had and however the requests were cut into pieces on their way; the keys of all other peers are left alone, and no peer is added or removed.", "quantifier": "all sequences of outputs of the daemons, all brokers and broker configurations, all interface names that are text, all states of the devices that have the peer, all sequences of partial writes, refusals and interruptions on the socket, all polls in between", "why_tests_cant": "The key crosses three processes and the kernel, in pieces that depend on the scheduling; the tests of the repository check neither a device nor two keys in a row.", "anchors": ["rosenpass/src/app_server.rs: output_key", "wireguard-broker/src/brokers/mio_client.rs: send_msg, flush, poll", "wireguard-broker/src/bin/priviledged.rs: main", "wireguard-broker/src/brokers/netlink.rs: set_psk"]}
{"id": "C131", "title": "The handshake is the one the white paper specifies", "statement": "Every InitHello that is sent is the one that steps IHI1-IHI8 of the white paper produce from the keys of the two peers and the fresh values drawn, in the paper's wire format with the paper's MAC for the receiver; an InitHello is answered only if it passes steps IHR1-IHR8, and the answer is the RespHello of steps RHR1-RHR7; a RespHello completes an exchange only if it passes steps RHI1-RHI7, and the answer is the InitConf of ICI3-ICI4; an InitConf completes an exchange only if its biscuit opens as load_biscuit says, carries a fresh number and passes ICR1-ICR5, and is answered by the first EmptyData of the session. Both sides then hold the transmission keys and export the WireGuard key the paper derives from the final chaining key.", "quantifier": "all servers in any state the API can reach, all peers with either protocol version, all random values, all received byte strings, all primitives that obey the laws of a KEM and an AEAD", "why_tests_cant": "The tests run the code against itself, so any change that both sides make alike goes unnoticed; no other implementation or test vector is in the repository.", "anchors": ["papers/whitepaper.md", "rosenpass/src/protocol/protocol.rs: HandshakeState, initiate, handle_init_hello, handle_resp_hello, handle_init_conf, osk", "rosenpass/src/hash_domains.rs", "rosenpass/src/msgs.rs"]}
{"id": "C132", "title": "The code interoperates with every implementation of the white paper", "statement": "An initiator that produces its messages by the steps of the white paper, whatever program it is, completes a handshake with a server running this code that has its key registered: the InitHello is answered with a RespHello the paper's initiator accepts, its InitConf is accepted, whatever else the server did in between, and is answered with the EmptyData of the paper, and the server then holds exactly the keys of that initiator. A responder that follows the paper completes a handshake with an initiator running this code: it accepts the InitHello, every RespHello the paper lets it send is accepted, from the InitConf it recovers its own biscuit and the initiator's keys, and its EmptyData ends the handshake.", "quantifier": "all implementations of the other side given by the functions of the paper, all their random choices (session identifiers, biscuit keys, nonces and numbers, reserved bytes, cookie fields), all states of the server, all other activity of the server between the messages that leaves the handshake pending, both protocol versions, all lawful primitives", "why_tests_cant": "Tests have only this implementation on both sides; a deviation that both sides share is invisible, and no test quantifies over the choices the paper leaves to the other side.", "anchors": ["papers/whitepaper.md", "rosenpass/src/protocol/protocol.rs: handle_msg, initiate_handshake, handle_init_hello, handle_resp_hello, handle_init_conf, handle_resp_conf"]}
{"id": "C133", "title": "The cookie mechanism is the one the white paper specifies", "statement": "A responder under load processes an InitHello exactly when its cookie field is the MAC the white paper prescribes, under the cookie value the paper derives from the cookie secret and the sender's address; every other InitHello is answered, without a change of any session, with the CookieReply of the paper: type, session identifier, and the cookie value encrypted under the paper's key with the mac field of the InitHello as additional data. An initiator that waits for an answer opens such a CookieReply, stores its cookie value, and its next transmission carries the cookie the paper prescribes. The paper's other rules: a CookieReply has 64 bytes, and the cookie field of a message without a stored cookie value is zero.", "quantifier": "all servers, all InitHello byte strings and sender addresses, all cookie secrets and their ages, all nonces, both protocol versions, all lawful primitives", "why_tests_cant": "A test compares the two sides of this implementation with each other, for a few addresses and messages; agreement of the bytes with the specification, for all inputs, is not visible from inside.", "anchors": ["papers/whitepaper.md: Denial of Service Mitigation and Cookies", "rosenpass/src/protocol/protocol.rs: handle_msg_under_load, handle_cookie_reply, seal_cookie", "rosenpass/src/msgs.rs: CookieReply"]}
{"id": "C134", "title": "What a daemon has put out for a peer is the key its protocol server holds for it", "statement": "At the end of every round of the daemon, whatever rounds came before: if the protocol server holds a session key for a peer, then that key is what the peer's output file contains and what the peer's broker was last told; and if it holds none, then for that peer nothing, or only a random key, has been put out. WireGuard and the user reading the key file therefore never work with a key other than the one the handshake is in.", "quantifier": "All daemon configurations, all sequences of rounds (timer events and received messages, any contents), all peers.", "why_tests_cant": "The server's state and the outputs are updated by different layers at different moments; a test sees some interleavings of timers and messages, not all histories.", "anchors": ["rosenpass/src/app_server.rs AppServer::event_loop, output_key", "rosenpass/src/protocol/protocol.rs CryptoServer::handle_msg, poll, osk"]}
{"id": "C135", "title": "The hash functions and ciphers keep the contract the protocol relies on", "statement": "SHAKE256, BLAKE2b, ChaCha20-Poly1305 and XChaCha20-Poly1305, as standardised (FIPS 202, RFC 7693, RFC 8439, draft-irtf-cfrg-xchacha), keep the contract that the code assumes of its primitives: digests of 32 bytes for every input; for every key, nonce, associated data and plaintext, the ciphertext is 16 bytes longer and decrypts to the plaintext; a ciphertext is accepted only if it is the encryption of the plaintext found; a rejected in-place decryption leaves the buffer as it was.", "quantifier": "All keys, nonces, associated data, plaintexts and ciphertexts of any length (for the crate's in-place functions: up to their limit of 2^38 - 65 bytes).", "why_tests_cant": "Known-answer tests check a handful of inputs; decrypt after encrypt must hold for every length and content.", "anchors": ["ciphers/src/subtle/rust_crypto/keyed_shake256.rs", "ciphers/src/subtle/rust_crypto/blake2b.rs", "ciphers/src/subtle/rust_crypto/chacha20poly1305_ietf.rs", "ciphers/src/subtle/rust_crypto/xchacha20poly1305_ietf.rs"]}
{"id": "C136", "title": "The identifiers of the API's messages are those the generator derives", "statement": "The constants by which API messages are told apart are what the repository's generator prints for them: each is the first sixteen bytes of the BLAKE2b hash domain `Rosenpass IPC API -> Rosenpass Protocol Server -> <message>`. The constants it prints for SHAKE256 are all different from those in use.", "quantifier": "All message types (requests and responses), all KEMs.", "why_tests_cant": "No test runs the generator; a constant pasted under the wrong name, or from the wrong half of the generator's output, still round-trips with itself.", "anchors": ["rosenpass/src/bin/gen-ipc-msg-types.rs calculate_hash_value, print_literal, Tree::gen_code_inner, main", "rosenpass/src/api/boilerplate/message_type.rs PING_REQUEST .. ADD_PSK_BROKER_RESPONSE"]}
{"id": "C137", "title": "The protocol's hash domains have different values", "statement": "The hash domains for all purposes (message authentication, cookies, peer identity, biscuits, chaining key, encryption keys, output keys), in both protocol versions, have pairwise different values, also different from the starting value, the protocol's root and the root of the chaining-key uses: for the hash functions the code uses, without any assumption about them.", "quantifier": "All pairs of purposes and protocol versions.", "why_tests_cant": "The values are fixed by the hash functions; no test compares them, and C25 speaks of them only under the assumption that no collision is met.", "anchors": ["rosenpass/src/hash_domains.rs", "ciphers/src/hash_domain.rs HashDomain::mix", "ciphers/src/subtle/custom/incorrect_hmac_blake2b.rs"]}
{"id": "C138", "title": "A configuration file is taken as a whole or rejected", "statement": "If a configuration file of rosenpass or rp is accepted, then every entry of it, at every level, has the effect it names, and every setting that is not in the file has its documented default; an entry that is no setting (a misspelt name, say) leads to rejection.", "quantifier": "All TOML documents, all orders of the entries, all values.", "why_tests_cant": "There are infinitely many files; the reading code is generated from attributes (flatten, default, deny_unknown_fields) whose combination behaves differently from what the attributes say one by one, which sample files do not show.", "anchors": ["rosenpass/src/config.rs Rosenpass, Keypair, RosenpassPeer, WireGuard, RosenpassPeerOskDomainSeparator (serde attributes), Rosenpass::load", "rosenpass/src/api/config.rs ApiConfig", "rp/src/exchange.rs ExchangeOptions, ExchangePeer"]}
{"id": "C139", "title": "A written configuration is read back as the same configuration", "statement": "What Rosenpass::store or commit writes of a configuration is read back by Rosenpass::load as that configuration (before ~ is expanded, C115): all peers, all options, absent and empty ones included, in whatever order the TOML writer puts the entries of tables.", "quantifier": "All configurations, all orders of table entries.", "why_tests_cant": "Round trips are tested for two configurations; optional and flattened parts give combinatorially many shapes, and lists are unbounded.", "anchors": ["rosenpass/src/config.rs Rosenpass::store, Rosenpass::commit, Rosenpass::load (serde attributes)", "rosenpass/src/api/config.rs ApiConfig"]}
{"id": "C140", "title": "The WireGuard device has the key that the protocol server holds", "statement": "At any time, for every peer whose key goes to a WireGuard device: if the protocol server of the daemon holds an output key for the peer, and the requests to the broker are worked off, the preshared key in the device is this key; if it holds none, the preshared key in the device is the one from before the start or a random one. In particular an outdated key never stays in the device.", "quantifier": "All configurations, runs of the daemon of any length, messages and times, all ways in which the socket of the broker takes the bytes, all other peers and interfaces.", "why_tests_cant": "The key passes through the protocol server, the event loop, the broker client with its write buffer, the privileged process and netlink; every part has its own errors and its own state, and the claim is about all histories of all of them.", "anchors": ["rosenpass/src/app_server.rs AppServer::event_loop, output_key", "wireguard-broker/src/api/client.rs BrokerClient::set_psk", "wireguard-broker/src/api/server.rs", "wireguard-broker/src/brokers/netlink.rs set_psk"]}
{"id": "C141", "title": "A running daemon leaves a key alone until it is due and then asks for renewal in time", "statement": "After an exchange with a peer, whatever else happens in the rounds of the event loop, the daemon does nothing about that peer (same file, nothing to the broker, same address, same key in force) until the key is 120 s (responder) or 130 s (initiator) old, unless the peer itself renews it. From then on, and as long as the key is not 180 s old, the daemon starts a handshake with the peer at the latest in the n-th round if it has n peers, by sending the first message to the address it knows; the old key stays in force meanwhile.", "quantifier": "All daemons in order, all numbers of peers, all sequences of rounds with all messages and times, all other peers' events.", "why_tests_cant": "Whether a renewal comes in time depends on the whole history: on requests of the protocol server that were not carried out earlier, on the events of all other peers that compete for the rounds, and on all messages in between.", "anchors": ["rosenpass/src/app_server.rs AppServer::event_loop, tx_maybe_with, poll", "rosenpass/src/protocol/protocol.rs CryptoServer::poll, PeerPtr::poll, Peer::initiation_requested"]}
