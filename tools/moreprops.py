# C63 ...
p("Base64 key files are only accepted when they hold a whole key",
  "`load_b64` succeeds only when the file is the base64 encoding of exactly as many bytes as the value has; a truncated key file (for instance one left by a crash during store) is an error.",
  "all file contents, all key sizes, all read schedules and all crash points of a store",
  "all contents and crash points", "secret-memory/src/secret.rs: LoadValueB64", "secret-memory/src/public.rs: LoadValueB64", "util/src/b64.rs: b64_decode")
# C64
p("Finished initiator handshakes hold no chaining key",
  "Once the initiator has derived its session keys (it has processed RespHello and waits for the confirmation), the chaining key of the handshake is erased from the handshake record.",
  "all histories of API calls, all messages, all clocks and random values",
  "all histories", "rosenpass/src/protocol/protocol.rs: handle_resp_hello, HandshakeState::erase")
# C65
p("Polling starves no peer",
  "While a peer has something due (a key to delete, an initiation or a retransmission to send), among any as many polls as there are peers one reports an event of that peer, whatever the other peers do.",
  "all histories, all numbers of peers, all interleavings of polls with other calls",
  "all schedules", "rosenpass/src/protocol/protocol.rs: CryptoServer::poll, peer_ptrs_off")

# C66
p("Building the protocol server is exact",
  "Building from the collected parameters succeeds exactly when a key pair was supplied and no peer was added twice; the resulting server has exactly the peers in the order they were added, numbered as announced when they were added.",
  "all builders, all sequences of added peers, all random values",
  "all sequences of additions", "rosenpass/src/protocol/build_crypto_server.rs: BuildCryptoServer::build, add_peer", "util/src/build.rs: ConstructionSite::erect")
# C67
p("Every address is tried from every local socket during discovery",
  "While host-path discovery runs, every combination of candidate address and local socket is eventually used to send a handshake message.",
  "all address lists, all numbers of sockets, all start states and all send outcomes",
  "all numbers of addresses and sockets", "rosenpass/src/app_server.rs: HostPathDiscoveryEndpoint::send_scouting, insert_next_scout_offset")
# C68
p("Restarting discovery keeps every known address",
  "When a peer's session expires and discovery is restarted, the candidate addresses are the last used address(es) followed by the configured ones, each once, and discovery starts with the last used one.",
  "all endpoints and address lists",
  "all address lists", "rosenpass/src/app_server.rs: Endpoint::discovery_from_multiple_sources")

# C69
p("The event loop never panics",
  "No round of the event loop panics, whatever is received and whatever I/O fails.",
  "all histories of the application (rounds, added peers, sockets and brokers, supplied keys), all received datagrams, clocks, random values and I/O outcomes",
  "all histories and all datagrams", "rosenpass/src/app_server.rs: AppServer::event_loop_without_error_handling, output_key, set_psk, tx_maybe_with, send_scouting")
# C70
p("No key event is lost when I/O fails",
  "If a round in which a key is exchanged or expires fails because of an I/O error, the key is output in a later round once I/O works again.",
  "all applications, all rounds, all combinations of I/O failures",
  "all failure points", "rosenpass/src/app_server.rs: AppServer::event_loop_without_error_handling, output_key")

# C71
p("The server does not sleep while a datagram waits",
  "Receiving never blocks while a datagram is waiting at one of the listen sockets.",
  "all histories of arrivals, signals and receive calls, all readiness events (including spurious ones)",
  "all interleavings of arrivals and calls", "rosenpass/src/app_server.rs: AppServer::try_recv, perform_mio_poll_and_register_events")
# C72
p("Datagrams reach the protocol in order, once, and without omission",
  "For each listen socket the datagrams handed to the protocol are exactly the ones that arrived, in order, up to those still waiting; a receive call comes back empty-handed only if nothing is waiting.",
  "all histories of arrivals, signals and receive calls, all I/O failures",
  "all interleavings", "rosenpass/src/app_server.rs: AppServer::try_recv, try_recv_from_listen_socket")
# C73
p("No listen socket is starved",
  "A datagram waiting at one listen socket is eventually handed to the protocol, whatever arrives at the other sockets.",
  "all histories of arrivals and receive calls",
  "all infinite schedules", "rosenpass/src/app_server.rs: AppServer::try_recv")

# C74
p("Keys sent through the broker socket are set in order and unaltered",
  "The keys the privileged broker sets are a prefix of the keys the client was asked to set, in order, unaltered, whatever the splits, refusals and failures of the socket; setting a key never panics.",
  "all sequences of calls of the client, all I/O outcomes, all ways the byte stream is cut",
  "all I/O outcomes", "wireguard-broker/src/api/client.rs: BrokerClient::set_psk, poll_response", "wireguard-broker/src/brokers/mio_client.rs: MioBrokerClient")
# C75
p("Broker answers go to the client that asked",
  "With any number of clients of the socket handler, each client gets the answers to its own requests, in the order of its requests, and its requests are handled in the order it sent them, each once.",
  "all interleavings of clients, tasks and the broker process",
  "all schedules", "wireguard-broker/src/bin/socket_handler.rs: worker, listen_for_clients, on_accept")
# C76
p("A broker client cannot block the others",
  "Whatever one client of the socket handler sends, the requests of the other clients are answered.",
  "all interleavings, all messages",
  "all schedules", "wireguard-broker/src/bin/socket_handler.rs: worker", "wireguard-broker/src/bin/priviledged.rs: main")
# C77
p("The privileged broker handles messages in order",
  "For every byte stream on its standard input, the privileged broker process handles exactly the complete messages in it, in order, and writes exactly their answers.",
  "all byte streams",
  "all byte streams", "wireguard-broker/src/bin/priviledged.rs: main")
# C78
p("rp pubkey exports the public halves of the keys it read, and only those",
  "When `rp pubkey` reports success, the directory it created holds the X25519 public key of the WireGuard secret key that was read and a byte-for-byte copy of the post-quantum public key; no other file is created, changed or removed, whatever happens; an existing output directory is refused unchanged. After a successful `rp genkey`, the exported keys are those of the generated pair.",
  "all file systems, paths, umasks, keys, I/O failures and crash points",
  "all failures and crash points", "rp/src/key.rs: pubkey", "rp/src/key.rs: genkey")
# C79
p("A validated configuration starts, with exactly the configured peers",
  "Starting never panics. Starting a configuration that passed validation succeeds as long as the operating system grants sockets, API sources and the broker; the server then runs with exactly the configured peers, in order, each with the keys, protocol version, domain separator, output file, WireGuard peer and endpoint it was configured with; if it was started without a key pair, this is so from the moment a key pair is supplied.",
  "all configurations, all contents of the files, all outcomes of the name service and the operating system",
  "all configurations and environments", "rosenpass/src/cli.rs: CliArgs::event_loop", "rosenpass/src/app_server.rs: AppServer::new, add_peer", "rosenpass/src/config.rs: Rosenpass::validate")
# C80
p("The server listens where it was told to",
  "With listen addresses configured the server listens on exactly those, in order, or does not start; without, it listens on the IPv6 wildcard address if possible and on the IPv4 wildcard address if the former does not serve IPv4; it never runs without a socket.",
  "all lists of addresses and all outcomes of bind",
  "all outcomes of the operating system", "rosenpass/src/app_server.rs: AppServer::new")
# C81
p("Secrets are independent values",
  "Every operation on secrets (creating, filling, cloning, overwriting, zeroizing, dropping) has exactly its documented effect on the named secret and none on any other secret, and panics only if no memory policy was chosen, a slice of the wrong length is given, or a later policy contradicts the first.",
  "all histories of operations on any number of threads, all sizes",
  "all histories; recycled memory makes secrets share buffers over time", "secret-memory/src/secret.rs: Secret, SecretMemoryPool", "secret-memory/src/policy.rs")
# C82
p("Secret memory is never shared, used after free or given to the wrong allocator",
  "At every moment each block of secret memory belongs to one secret, lies in one place of one pool or was given back, once, to the allocator it came from, which is the one of the chosen policy; the policy never changes once it was chosen.",
  "all histories of operations on any number of threads",
  "all histories", "secret-memory/src/alloc/mod.rs: SecretAlloc", "secret-memory/src/secret.rs: SecretMemoryPool::take, SecretMemoryPool::release")
# C83
p("Keys handed to `wg` go to the right peer and never appear on a command line",
  "Setting a key with the native broker runs `wg set` with exactly the configured interface, peer and extra parameters and hands the key over on standard input; the key is never part of the arguments; success is reported only if `wg` accepted the key.",
  "all configurations, keys, extra parameters and failures",
  "all inputs and failures", "wireguard-broker/src/brokers/native_unix.rs: NativeUnixBroker::set_psk")
# C84
p("Broker configurations survive serialisation",
  "Extra parameters (any strings, including empty ones) and peer ids come out of their encodings exactly as they were given; anything that is not a complete peer id is refused.",
  "all lists of strings and all peer ids",
  "all inputs", "wireguard-broker/src/brokers/native_unix.rs: NativeUnixBrokerConfigBaseBuilder, NativeUnixBrokerConfig")
# C85
p("rp touches no network device but its own, and removes that",
  "`rp exchange` refuses to start if a device of the requested name exists, makes requests about no device except the one it created, configures that with the secret key and port, and has removed it when it ends, whatever the reason.",
  "all interleavings with other processes' changes of the kernel's devices, all failures of requests",
  "all interleavings and failure points", "rp/src/exchange.rs: WireGuardDevice, WireGuardDeviceImpl, exchange")

# C86
p("Length-prefix buffers check every length and position",
  "In any sequence of calls, the encoder takes a message length or writing position exactly if the message fits the buffer and the position lies within the frame, and refuses any other with an error that changes nothing; neither encoder nor decoder ever panics, and what they say is written, left or received adds up to the frame.",
  "all buffers, all sequences of public calls and arguments, all schedules of partial I/O",
  "all call sequences and argument values", "util/src/length_prefix_encoding/encoder.rs: LengthPrefixEncoder", "util/src/length_prefix_encoding/decoder.rs: LengthPrefixDecoder")

# C87
p("rp exchange sets up what its options say",
  "`rp exchange` runs a server with exactly the configured peers (keys, versions and endpoints as given, a pre-shared key exactly if the file is there, keys handed to the right WireGuard peer of its device together with endpoint, keepalive and allowed addresses), WireGuard uses the port after Rosenpass's on both sides, addresses and routes are set as configured, and whatever cannot be done is reported as an error.",
  "all options, file contents, and failures of the operating system",
  "all inputs and failure points", "rp/src/exchange.rs: exchange, ExchangeOptions, ExchangePeer")

# C88
p("Datagrams go only where the peer is",
  "A datagram is sent only as the answer to a message just accepted, to where that came from, or, when an initiation or retransmission to a peer is due, to an address configured for that peer or one from which it completed an exchange; due messages are sent whenever the peer has an address; and only a completed exchange or a due new handshake changes which address is used.",
  "all histories of the application, all received datagrams and their sources, all failures of sending",
  "all histories and network behaviours", "rosenpass/src/app_server.rs: AppServer::event_loop_without_error_handling, AppPeer::endpoint, Endpoint")
# C89
p("The daemon stops on the termination signal",
  "The event loop returns successfully exactly when the termination signal is reported, and it looks for it in every round in which the protocol server has nothing to do.",
  "all states of the application, all outcomes of a round",
  "all states", "rosenpass/src/app_server.rs: AppServer::event_loop, AppServer::poll")
# C90
p("Each API request has exactly its documented answer and effect",
  "Supplying a key pair, a listen socket or a broker is answered with the documented status byte for every combination of descriptors, file contents and present state, and changes exactly what the status says; an error status means that nothing was changed.",
  "all application states, all descriptors and contents of the files behind them, all failures of registration",
  "all states and inputs", "rosenpass/src/api/api_handler.rs: ApiHandler", "rosenpass/src/protocol/build_crypto_server.rs: BuildCryptoServer")
# C91
p("API clients cannot bring down the daemon by connecting and disconnecting",
  "Whatever API connections were opened, used and closed before, a new client gets a working connection, and no event on an API socket makes the daemon panic.",
  "all histories of listeners, connections, received bytes and polls",
  "all histories", "rosenpass/src/api/mio/manager.rs: MioManager", "rosenpass/src/api/mio/connection.rs: MioConnection::should_close")
# C92
p("Who completes a handshake, completes it with the configured peer (mutual agreement)",
  "With ideal cryptography and an attacker who controls the network, reads, forges, replays and mixes all messages of any number of servers and sessions and may obtain secrets: if an initiator accepts a RespHello while the pre-shared key, or the peer's static key and the coins used for it, are unknown to the attacker, then the peer's server received exactly this InitHello, meant this initiator, has the same pre-shared key, and sent this answer. If a responder accepts an InitConf whose biscuit key is not compromised, it made the biscuit itself, and (if the pre-shared key or the initiator's static key is secret) the initiator sent exactly this InitConf, after exactly this exchange of messages, and has the same session. If an initiator accepts the acknowledgement, the responder has the session. With the private key of a server alone, nobody can be impersonated to it.",
  "all networks of servers and configurations, all interleavings of any number of handshakes, all active attackers, all choices of compromised secrets and times of compromise",
  "all interleavings and all attackers; a test can only play one attack",
  "rosenpass/src/protocol/protocol.rs: handle_initiation, handle_init_hello, handle_resp_hello, handle_init_conf, handle_resp_conf, HandshakeState, store_biscuit, load_biscuit")
# C93
p("Output keys stay secret, also after later compromise (forward secrecy)",
  "With ideal cryptography: the attacker knows a key exported from a session between honest servers if and only if he was given that key, or the biscuit key that the responder used for it, or all of: the pre-shared key, a secret for each of the two encapsulations to the static keys, and one of the ephemeral secrets. So the static keys of both sides and the pre-shared key, all obtained later, do not reveal earlier keys; any one of pre-shared key, initiator's static key, responder's static key and ephemeral key suffices for secrecy.",
  "all networks, all interleavings, all active attackers, all sets of compromised secrets, all exported domain separators",
  "all attackers and histories",
  "rosenpass/src/protocol/protocol.rs: HandshakeState, mix, encrypt_and_mix, encaps_and_mix, decaps_and_mix, store_biscuit, osk")
# C94
p("Different handshakes have different output keys",
  "With ideal cryptography: two sessions of initiators have the same output key only if they are the same handshake of the same server with the same peer; two sessions of responders only if they come from the same InitConf at the same server for the same peer; a session of an initiator and one of a responder only if they belong together. This needs no secrecy at all.",
  "all networks, all runs with any attacker and any compromised secrets, all pairs of sessions",
  "all pairs of sessions in all runs",
  "rosenpass/src/protocol/protocol.rs: HandshakeState, osk")

p("AEAD calls and their buffers","`encrypt` into a buffer exactly 16 bytes longer than the plaintext (40 with the nonce in the ciphertext) succeeds and `decrypt` of the result into a buffer of the plaintext's length returns it, whatever the buffers held before; with a buffer of any other length the call returns `InvalidLengths`, writes nothing and does not panic; a failing decryption never leaves decrypted data in the buffer.",
  "all AEADs with the stated functional laws, all keys, nonces, associated data, plaintexts and buffers","for all buffer lengths and contents",
  "cipher-traits/src/primitives/aead.rs: Aead, AeadWithNonceInCiphertext","ciphers/src/subtle/rust_crypto/chacha20poly1305_ietf.rs","ciphers/src/subtle/rust_crypto/xchacha20poly1305_ietf.rs")
p("Serialized keys","Serializing a `Secret`, `Public` or `PublicBox` of any size with serde and deserializing the string gives the same key; a string deserializes to a key of N bytes exactly if it is the serialization of that key (no other size, no other spelling).",
  "all sizes, all keys, all strings","for all strings",
  "secret-memory/src/serialization.rs")
# C97
p('Two daemons configured for each other put out the same key',
  'If two running daemons have each other as peer (matching static keys, pre-shared key, protocol version, domain separator) and one of them starts a handshake, then, as the four datagrams are delivered (in whatever rounds of the two event loops, with anything else happening in between that does not replace the handshake, and from whatever addresses), every datagram is answered to the address it came from, both daemons write the same 32-byte key to the file of the right peer, announce it under the right peer id, hand it to the broker for the right interface and peer, remember the address, and continue; the acknowledgement ends the handshake and leaves the key in force.',
  'all lawful suites, all pairs of configured daemons in any reachable state, all interleavings with other rounds, all addresses, all randomness',
  'all states and all interleavings of two event loops; a test runs one exchange',
  'rosenpass/src/app_server.rs: AppServer::event_loop_without_error_handling, output_key, tx_maybe_with, poll',
  'rosenpass/src/protocol/protocol.rs: CryptoServer::{initiate_handshake,handle_msg,osk,poll}')
# C98
p('Type-level integers convert to the constants they denote',
  'typenum2const! gives, for every type-level integer and every supported integer type with the number in its range, the constant that denotes that number, including the smallest negative number of a signed type; in general it gives the number modulo 2^width, and the only conversion that does not compile is one of a negative number to an unsigned type. A number that does not fit is truncated silently instead of being refused.',
  'all type-level integers of every number of bits, all target widths above one bit, signed and unsigned',
  'the unit test enumerates constants near powers of two',
  'util/src/typenum.rs: typenum2const, IntoConst, ConstLshift, ConstAdd, ConstApplyNegSign')
# C99
p('A handshake completes although messages are lost, repeated or delayed and third parties interfere',
  'After initiate_handshake, as long as the other calls at the initiator leave this handshake alone (no new handshake with that peer, no expiry after 180 s, no authentic RespHello or InitConf of that very peer), retransmit_handshake gives the InitHello again (same bytes up to the cookie), the responder answers any such copy, and the initiator accepts the answer. From then on retransmit_handshake gives the InitConf again, byte for byte. The responder accepts it after any calls made within 300 s of its answer that accept no InitConf of that peer, and both sides then have the same key. Every further copy of the InitConf is answered with the same EmptyData (up to the cookie), without change of state, as long as the answer is cached; and the initiator accepts any of these answers and ends the handshake with the same key.',
  'all mutually registered servers in states reached by any history, all random values with unused session ids, all times, all histories of other calls in between (unbounded), every choice of the copy that arrives',
  'needs an induction over arbitrary histories of calls between any two of the four messages, on both sides',
  'rosenpass/src/protocol/protocol.rs: retransmit_handshake, handle_msg, poll, IniHsPtr::store_msg_for_retransmission, apply_retransmission')
# C100
p('A cookie vouches for one message from one address, a seal for one message to one receiver',
  "If, under load, two InitHellos carrying the same cookie are both answered with a RespHello (by any servers, at any times, from any addresses), they are the same message from the same address checked against the same secret, or the hash collides on 16 bytes. If two messages carrying the same seal are both processed successfully, the two servers have the same public key and the messages agree in every byte before the seal, or the hash collides on 16 bytes. If a CookieReply issued for a message is accepted, it is taken for a handshake with the issuer's public key of which the message last sent carries the seal of that very message, or the hash collides, or the encrypted cookie opens in two ways.",
  'all servers in any states, all byte strings, addresses, times and random values',
  'tests can only show that sampled modifications are rejected; the claim covers every byte of every message',
  'rosenpass/src/protocol/protocol.rs: seal, seal_cookie, check_seal, handle_msg_under_load, handle_cookie_reply',
  'rosenpass/src/hash_domains.rs: mac, cookie, cookie_value, cookie_key')
# C101
p('Secret memory comes from and goes back to one allocator, aligned, and failures leak nothing',
  "A request to one of the two secret allocators succeeds exactly if the system has memory and the requested alignment can be had for a block that ends at a page boundary; then the block has the requested size and alignment and overlaps no other block. A request that is refused leaves no block behind. Every Rust type's layout (size a multiple of the alignment, alignment up to a page) is served whenever there is memory. Over any history of boxes made and dropped, with either allocator, the boxes held are exactly the live blocks: none is lost, none freed twice, none given to the other allocator.",
  'all layouts, all placements the system may choose, all histories of allocations, failures and drops with both allocators',
  'the tests try five sizes with alignment one and never fail an allocation',
  'secret-memory/src/alloc/mod.rs: SecretAlloc',
  'secret-memory/src/alloc/memsec/malloc.rs: MallocAllocator',
  'secret-memory/src/alloc/memsec/memfdsec.rs: MemfdSecAllocator')
# C102
p('Typed views of buffers cover exactly the bytes they should',
  'zk_parse, zk_parse_prefix and zk_parse_suffix give a view exactly if the slice has (at least) the size of the type and the bytes in question are aligned for it; the view is the whole slice, its first or its last bytes. Splitting loses no byte. A zeroized view reads as zeros and no byte outside it is changed. If a zeroized view is refused for lack of room, prefix and suffix leave the buffer alone; if refused for alignment, or by zk_zeroized at all, the bytes are wiped nevertheless. Borrowing from a view never panics.',
  'all buffers, addresses, slices, sizes and alignments',
  'the doctests use a few fixed buffers',
  'util/src/zerocopy/ref_maker.rs: RefMaker',
  'util/src/zerocopy/zerocopy_slice_ext.rs: ZerocopySliceExt, ZerocopyMutSliceExt',
  'util/src/zerocopy/zerocopy_ref_ext.rs: emancipate, emancipate_mut',
  'util/src/zeroize/zeroized_ext.rs: zeroized')
# C103
p('Results written to a destination: all calling styles agree, errors discard the destination',
  'For every function that writes to a destination: to(), to_this, to_value, collect and their beside forms run it once on the given or default destination and return what it left there and what it returned; they panic exactly if it does. The condensed forms return the destination on success and only the error otherwise. Copying slices through them gives exactly the source, or panics (copy_slice) or reports failure (try_copy_slice) on a length mismatch; collecting into a Vec panics for every non-empty source.',
  'all destination functions, storage types, sources and destinations',
  'the doctests show one call of each style',
  'to/src/to/to_trait.rs: To',
  'to/src/to/to_function.rs: to',
  'to/src/to/beside.rs: Beside',
  'to/src/to/condense.rs: CondenseBeside',
  'to/src/ops.rs: copy_slice, try_copy_slice, copy_slice_least, try_copy_slice_least_src')
# C104
p('A connection of the API server is given back when its client hangs up',
  "When a client of the API socket closes its end, the server eventually closes the connection and reuses its slot, so that the number of connections is bounded by the number of clients connected at the same time. (False: the end of the stream is treated like 'nothing to read yet'; every client that ever connected keeps its connection, socket and two buffers of secret memory until the daemon ends.)",
  'all histories of clients connecting, sending incomplete or no requests and hanging up, all numbers of polls',
  'the API integration tests make one connection each',
  'rosenpass/src/api/mio/connection.rs: recv, should_close',
  'rosenpass/src/api/mio/manager.rs: poll_particular_connection, add_connection')
# C105
p('An initiated handshake starts at most one session',
  'Once a server accepted a RespHello, it accepts no further RespHello for the same session id (in particular not the same packet again), whatever messages, timers and other handshakes come in between, unless it starts a new handshake that draws the same session id. So an attacker cannot make the initiator start a session twice from one exchange.',
  'all server states reachable with fresh session ids, all histories between the two deliveries, all later RespHello packets with that session id',
  'the replay tests of the repository cover InitConf and only with particular schedules; the analysis (02_availability.entry.mpv) claims this for the abstract protocol only',
  'rosenpass/src/protocol/protocol.rs: handle_resp_hello, lookup_handshake',
  'analysis/02_availability.entry.mpv')
# C106
p('A handshake with a responder under load completes',
  'If the responder is under load all the time and answers the first message with a CookieReply, the initiator accepts it, its next retransmission is answered with a RespHello when it comes from the same address while the cookie secret is usable, the initiator accepts that, and the responder, still under load, accepts the confirmation from any address; both sides then have the same key. In between, any other calls may be made on both sides as long as they leave the handshake alone.',
  'all pairs of servers registered with each other, all histories in between, all times, all randomness, both protocol versions',
  'composition of the cookie mechanism, the retransmission and the handshake over two machines and all interleavings',
  'rosenpass/src/protocol/protocol.rs: handle_msg_under_load, handle_cookie_reply, apply_retransmission',
  'papers/whitepaper.md: Cookie mechanism')
# C107
p('Claimed file descriptors: own, masked, never leaked',
  "Claiming a file descriptor given by number yields a descriptor of the caller's own for the same open file, close-on-exec and never one of the standard streams, and leaves /dev/null under the old number, so that the same file cannot be claimed twice; a claim that fails leaves all descriptors as they were. Claiming in place keeps the number, close-on-exec, or closes it. Over any history of claims and drops no descriptor leaks or is closed twice.",
  'all tables of open files, all numbers, all failures of the system calls involved, all histories of claims, opened files and drops',
  'depends on which descriptors are open and which of four system calls fails',
  'util/src/fd.rs: claim_fd, claim_fd_inplace, mask_fd, clone_fd_cloexec, clone_fd_to_cloexec, open_nullfd',
  'util/src/mio/mio.rs: UnixListenerExt, UnixStreamExt')
# C108
p('API sockets given by descriptor number',
  'If the server starts with API sockets given by number, every number refers to a socket of the right kind that was given to the process, and the server ends up with exactly one listener or connection of its own for each, non-blocking, with the numbers masked; anything else is refused with an error.',
  'all configurations, all tables of open files, all failures of system calls',
  'depends on what was open when the process was started and on the order in which descriptors are taken',
  'rosenpass/src/api/config.rs: apply_to_app_server',
  'util/src/mio/mio.rs: UnixListenerExt::claim_fd, UnixStreamExt::claim_fd',
  'rosenpass/src/app_server.rs: add_api_listener, add_api_connection')
# C109
p('The broker client flushes its queue in blocking mode',
  'When a new request for the WireGuard broker finds the previous one not yet written, the client puts the socket into blocking mode, writes the rest, waiting in the kernel, restores the mode and only then queues the new request.',
  'all queues, all states of the descriptor table, all answers of the kernel to the writes',
  'depends on how long the socket takes nothing; a test socket never blocks',
  'wireguard-broker/src/brokers/mio_client.rs: flush_blocking, flush, send_msg')
# C110
p('Identity hiding against an observer of the network',
  'Whoever watches the network but has neither the static secret keys nor the biscuit keys nor the random values of the participants cannot tell who talks to whom, even with all public keys and pre-shared keys: two runs with the same visible course (which message answers which, number of the biscuit key) are indistinguishable.',
  'all sets of servers, keys and peer entries; all interleavings, losses, repetitions and misdeliveries of honest messages, any number of handshakes; all tests an observer can compute',
  'indistinguishability quantifies over every pair of runs and every computation of the observer; the repository only has a ProVerif test for it (analysis/rosenpass/03_identity_hiding.mpv)',
  'rosenpass/src/protocol/protocol.rs: handle_initiation, handle_init_hello, handle_resp_hello, handle_init_conf, seal',
  'rosenpass/src/msgs.rs: Envelope, InitHello, RespHello, InitConf',
  'analysis/rosenpass/03_identity_hiding.mpv')
# C111
p('A responder never locks itself out of its own biscuits',
  "Whatever messages a server receives, from whomever and in whatever order, the number of the last biscuit it accepted from each peer stays below the number of the next biscuit it will issue, so a new exchange with any peer still succeeds. The only way around is a message with a biscuit that opens under the server's secret biscuit key although the server never sent it, that is, a forgery of the AEAD.",
  'all histories of calls of a server of fewer than 2^96 - 1 calls, all messages, peers, protocol versions and times',
  'The replay counter is raised by messages of the peers, the issue counter by hellos; a lockout would show only after a particular interleaving of many exchanges, including failed and replayed ones.',
  'rosenpass/src/protocol/protocol.rs: HandshakeState::store_biscuit',
  'rosenpass/src/protocol/protocol.rs: HandshakeState::load_biscuit',
  'rosenpass/src/protocol/protocol.rs: CryptoServer::handle_init_conf',
  'rosenpass/src/protocol/protocol.rs: CryptoServer::new')
# C112
p('Two daemons put out the same key although the network loses, repeats and delays datagrams',
  'Two running daemons configured for each other (as in C97); one starts a handshake. As long as nothing else ends that handshake (no authentic RespHello/InitConf of that very peer from elsewhere, less than 180 s / 300 s), every round in which a retransmission is due sends the current message of the handshake again to the current address of the peer: InitHello again up to its cookie, later InitConf byte for byte. Whichever copy of whichever message arrives first, from whatever address: the responder answers it, the initiator puts out a key (file, announcement, broker, address), the responder puts out the same key for the right peer, it answers every further copy of InitConf with the same acknowledgement (up to the cookie) without putting out anything again, and any of these acknowledgements ends the handshake at the initiator with the key in force.',
  'all lawful suites, all pairs of daemons whose protocol servers are in any reachable state, all numbers of lost and repeated datagrams, all rounds in between (unbounded), all addresses, all randomness with unused session ids',
  'needs an induction over arbitrary histories of both event loops between any two of the messages; a test loses one message at one point',
  'rosenpass/src/app_server.rs: AppServer::event_loop_without_error_handling, tx_maybe_with, output_key, poll',
  'rosenpass/src/protocol/protocol.rs: retransmit_handshake, handle_msg, poll')
# C113
p('The exit status of `rosenpass` tells whether the command succeeded',
  'The process exits with status 0 only if the command did what it is for: gen-config wrote the whole example, gen-keys and keygen wrote the whole pair to the files named by the configuration or the flags, validate found every file to be a loadable configuration that passes the checks; otherwise the status is 1. validate prints one verdict per file, in order.',
  'all arguments, file systems, home directories, TOML contents, failing or short writes and kill points',
  'The failing cases are failures of the operating system in the middle of a command; tests only run commands that succeed.',
  'rosenpass/src/main.rs:main',
  'rosenpass/src/cli.rs:CliArgs::run')
# C114
p('A daemon started from the command line runs what it was told',
  'If `rosenpass exchange` or `exchange-config` serves, then with the keys, peers, pre-shared keys, outputs and sockets of the given file or arguments, with the API sockets of the configuration followed by those of the flags, with the broker of the flags; every peer has an output and a daemon without keys has an API; no file but the one to save to has changed. And it serves exactly if what it needs is there.',
  'all arguments, flags, files, configurations and answers of the operating system',
  'The space of configurations and flags is infinite and each refusal depends on a combination of them.',
  'rosenpass/src/cli.rs:CliArgs::run',
  'rosenpass/src/cli.rs:CliArgs::apply_to_config',
  'rosenpass/src/cli.rs:get_broker_interface',
  'rosenpass/src/api/cli.rs:apply_to_config',
  'rosenpass/src/config.rs:validate',
  'rosenpass/src/config.rs:check_usefullness')
# C115
p('`~` in the paths of a configuration file means the home directory',
  'In a configuration file, a path `~` or `~/rest` names the home directory or the file of that name below it; every other path is meant literally; nothing else in the configuration changes.',
  'all configurations, all paths (with repeated slashes and dots) and all home directories',
  'Paths are arbitrary strings; the existing test tries a handful.',
  'rosenpass/src/config.rs:resolve_path_with_tilde',
  'rosenpass/src/config.rs:Rosenpass::load')
# C116
p('A saved configuration starts the same daemon',
  'The file written by `rosenpass exchange --config-file` makes `exchange-config` with the same flags behave exactly as the `exchange` that wrote it.',
  'all argument lists, flags and file systems',
  'The meaning of a file is compared with that of arguments for all of them.',
  'rosenpass/src/cli.rs:CliArgs::run',
  'rosenpass/src/config.rs:Rosenpass::store',
  'rosenpass/src/config.rs:Rosenpass::load')
# C117
p('No command replaces an existing file unless told to',
  'gen-config, gen-keys, keygen, validate, exchange and exchange-config leave every existing file as it is unless --force is given, whatever fails and wherever the process is killed.',
  'all arguments, file systems, failures and kill points',
  'Requires all failure and kill points of all commands.',
  'rosenpass/src/cli.rs:CliArgs::run')
# C118
p('Log level options set the level the help text names',
  '--log-level sets the given level, --verbose sets debug, --quiet sets error; without any of them the level is the default.',
  'all combinations of the options clap lets through',
  'The code has no test of it; the claim ranges over all options.',
  'rosenpass/src/cli.rs:get_log_level')
# C119
p('`rp`: the exit status tells success and no existing file is changed',
  'Every command of rp leaves every existing file as it is, whatever fails and wherever the process is killed. It exits with 0 or 1, and with 0 only if the command was carried out: genkey made the directory with a complete set of fresh keys, pubkey exported the public keys of the given directory. It never panics on what the user gives it.',
  'all command lines, file systems, configuration files, failing or short reads and writes and kill points',
  'Requires all failure and kill points of all commands; tests run commands that succeed in fresh directories.',
  'rp/src/main.rs:main',
  'rp/src/main_supported_platforms.rs:main',
  'rp/src/key.rs:genkey',
  'rp/src/key.rs:pubkey')
# C120
p('Two hosts set up with `rp` as the manual says are linked',
  "If on each of two hosts rp genkey made the keys, rp pubkey exported them, the exported directory was copied to the other host, and rp exchange serves there with that directory as a peer (with the same protocol version, and the same psk file or none), then the two daemons are registered with each other under the same pre-shared key, version and output domain; each hands its keys to exactly the WireGuard peer with the other's device key on the device it configured with its own key; and this stays so after any rounds of either event loop.",
  'all pairs of hosts, keys, directories, options and file systems; all later rounds of both daemons',
  'It relates two processes, four commands and two file systems, for all keys and all histories afterwards.',
  'rp/src/main_supported_platforms.rs:main',
  'rp/src/key.rs:genkey',
  'rp/src/key.rs:pubkey',
  'rp/src/exchange.rs:exchange')
# C121
p('Message buffers keep nothing of messages that are done with',
  'Once a message has been handled (a request) or sent completely (a response or a request with a key), the buffer it went through holds none of its bytes any more: clear and zeroize of the length-prefix coders overwrite everything, an API connection holds nothing but the request being received and the response being sent, and the broker client does not keep a key it has sent.',
  'all histories of calls, of arriving bytes, of short, failing and interrupted reads and writes, and all contents',
  'What is left in a buffer is not visible in the behaviour; it has to be zero after every history of partial reads and writes.',
  'util/src/length_prefix_encoding/decoder.rs:clear',
  'util/src/length_prefix_encoding/encoder.rs:clear',
  'util/src/length_prefix_encoding/encoder.rs:zeroize',
  'rosenpass/src/api/mio/connection.rs:handle_incoming_message',
  'rosenpass/src/api/mio/connection.rs:flush_write_buffer',
  'wireguard-broker/src/brokers/mio_client.rs:send_msg')
# C122
p('Debug text tells nothing about secrets',
  'The text that debug-formatting ({:?}) a server, its peers, handshakes and sessions, or the configuration of a broker call gives, depends on no secret: two values that differ in nothing but secret keys, pre-shared keys, chaining keys, session keys, biscuit keys, cookie secrets and cookies have the same text.',
  'all pairs of server states that agree on everything that is not secret',
  'Non-interference relates all pairs of states; a test sees one text, in which a leaked secret looks like any other number.',
  'rosenpass/src/protocol/protocol.rs:CryptoServer',
  'rosenpass/src/protocol/protocol.rs:KnownResponse',
  'rosenpass/src/protocol/cookies.rs:CookieStore',
  'secret-memory/src/secret.rs:Secret',
  'wireguard-broker/src/brokers/native_unix.rs:NativeUnixBrokerConfig')
# C123
p('Debug text identifies public values',
  'Two different public values of the same length (session ids, peer ids, biscuit numbers, which appear in error messages) have different debug texts.',
  'all pairs of public values of the same length',
  'It is a statement about all pairs of values.',
  'secret-memory/src/debug.rs:debug_crypto_array',
  'secret-memory/src/public.rs:Public')
# C124
p('Comparison, xor and increment run in constant time',
  'The outcome of every branch and the address of every memory access that compare, memcmp, xor and increment perform depend on the lengths of their arguments only, never on their contents; and the code for which this holds computes the comparison, xor and successor.',
  'all byte strings of all lengths',
  'A timing test measures correlations over sample inputs on one machine; constant time is a statement about all pairs of inputs.',
  'constant-time/src/compare.rs:compare',
  'constant-time/src/compare.rs:memcmp_le',
  'constant-time/src/memcmp.rs:memcmp',
  'constant-time/src/increment.rs:increment',
  'constant-time/src/xor.rs:xor')
# C125
p('Rounding does not disturb the life cycles',
  'Time stamps are floating point numbers of seconds. However the arithmetic rounds (in any way IEEE 754 allows): the clock never goes back; an object never gets younger; and as long as a daemon has run for less than 2^31 s, sessions, handshakes, biscuit keys, cookie secrets and cookies change from young to retired to dead at the specified ages (120 s, 130 s, 180 s, 300 s …, less the grace of 2.5 ms), up to 4 microseconds.',
  'all rounding functions, all time stamps and all readings of the clock',
  'Rounding depends on the exact time stamps; a test tries a few, shortly after start, when numbers are small and rounding is invisible.',
  'rosenpass/src/protocol/timing.rs:has_happened',
  'util/src/time.rs:Timebase',
  'rosenpass/src/protocol/protocol.rs:MortalExt',
  'rosenpass/src/protocol/constants.rs:EVENT_GRACE')
# C126
p('A key stays in force until it is renewed, and it can be renewed for ever',
  'Between two exchanges nothing happens to a session: whatever other calls are made (other peers, forged or stray messages, polls), osk gives the same key, and poll reports nothing about the peer, until the session is 120 s (responder) or 130 s (initiator) old. If the application then polls before 180 s, it is asked to initiate exactly once. The handshake it starts can be completed whatever else is going on; each side uses the old key until the call that gives it the new one, and the new one from then on; and afterwards both sides are again in a state in which all of this holds, so that the key can be renewed any number of times, by either side.',
  'all numbers of rounds, all interleavings with other calls at both ends, all choices of who initiates, all retransmissions of the first and last message',
  'An unbounded number of rekeyings with arbitrary traffic between any two calls.',
  'rosenpass/src/protocol/protocol.rs:CryptoServer::poll',
  'rosenpass/src/protocol/protocol.rs:CryptoServer::initiate_handshake',
  'rosenpass/src/protocol/protocol.rs:CryptoServer::handle_msg',
  'rosenpass/src/protocol/protocol.rs:CryptoServer::osk',
  'rosenpass/src/protocol/constants.rs:REKEY_AFTER_TIME_INITIATOR')
# C127
p('Crossed handshakes end with the same key',
  "If two peered servers start a handshake with each other at the same time and every message is delivered, both end up with the same key. (False of the code: if both process the answer to their own first message before the other's third message arrives, both handshakes complete, each side ends with the key of the handshake the other one started, both take themselves for the responder and hence ask for renewal at the same age, so the crossing can repeat for ever. Proved: the exact outcome of a crossing, that it can repeat any number of times, that the keys differ in a concrete run, that one uncrossed renewal heals it, and that the sides agree if a third message overtakes an answer.)",
  'all lawful primitives, all reachable pairs of peered servers without a pending handshake, all times, random choices and buffers of both sides, any number of rounds',
  'Needs two handshakes of the same pair interleaved; the tests run one handshake at a time, and the outcome must be known for every state in which it can start.',
  'rosenpass/src/protocol/protocol.rs: CryptoServer::initiate_handshake, handle_msg, handle_resp_hello, handle_init_conf, PeerPtr::hs, PeerPtr::session, REKEY_AFTER_TIME_RESPONDER')
# C128
p('The broker processes end with the daemon',
  "If the daemon starts the key broker itself (psk-broker-spawn) and then ends, for whatever reason, the broker's stream ends, so that the broker and its privileged helper end as well. (False of the code: the socket pair is created without the close-on-exec flag, so the broker and its privileged helper inherit the daemon's own end of the pair; as long as the broker runs its stream cannot end, whatever the daemon does, and both processes stay behind. Proved: the counterexample for every continuation; that with the flag the stream does end; and the other direction, which holds: if the broker ends, the helper's input ends, and when the helper has ended too, the daemon's stream ends.)",
  'all descriptor tables of the daemon with open standard streams, all numbers of the socket pair, all later sequences of opening, duplicating, closing and claiming descriptors, starting children and ending processes',
  'Which process holds which end of a socket after fork and exec is not visible to a unit test of the daemon, and must be known after every later sequence of events in three processes.',
  'rosenpass/src/cli.rs: CliArgs::get_broker_socket (BrokerInterface::SocketPair)',
  'wireguard-broker/src/bin/socket_handler.rs: main, direct_broker_process, on_accept',
  'util/src/fd.rs: claim_fd')
# C129
p('The end of the privileged broker is noticed',
  'If the privileged broker process ends (or could not be started), the socket handler that feeds it carries out and answers no further request, leaves no client waiting, closes the connection of every client that asks for something, and ends itself, so that whoever started it can react. (The last part is false of the code if the handler listens for clients: the failure panics in a task of its own, the process goes on, accepts clients for ever and turns each of them away at its first request. Proved: everything else, for both ways of use; that a listening handler stays; that a handler with one given stream ends as soon as it is asked for something; before that nobody notices.)',
  'all inner brokers and their states, all interleavings of any number of clients, of the tasks of the handler and of the privileged broker, all times at which it ends, both ways to start the handler',
  'The privileged broker can end between any two steps of any number of concurrent tasks; no test of the repository runs the handler at all.',
  'wireguard-broker/src/bin/socket_handler.rs: main, direct_broker_process, listen_for_clients, on_accept',
  'wireguard-broker/src/bin/priviledged.rs: main')
# C130
p('Both WireGuard devices get the key that was agreed on',
  'When two daemons have put out the key of an exchange for each other (C97, C112) and each of them feeds the preshared key of a peer of a WireGuard device through the broker, then, once the requests are written and worked off, both devices hold that key for that peer; a device always holds the key that the daemon put out last, whatever keys were put out before, whatever other outputs the daemon had and however the requests were cut into pieces on their way; the keys of all other peers are left alone, and no peer is added or removed.',
  'all sequences of outputs of the daemons, all brokers and broker configurations, all interface names that are text, all states of the devices that have the peer, all sequences of partial writes, refusals and interruptions on the socket, all polls in between',
  'The key crosses three processes and the kernel, in pieces that depend on the scheduling; the tests of the repository check neither a device nor two keys in a row.',
  'rosenpass/src/app_server.rs: output_key',
  'wireguard-broker/src/brokers/mio_client.rs: send_msg, flush, poll',
  'wireguard-broker/src/bin/priviledged.rs: main',
  'wireguard-broker/src/brokers/netlink.rs: set_psk')
# C131
p('The handshake is the one the white paper specifies',
  "Every InitHello that is sent is the one that steps IHI1-IHI8 of the white paper produce from the keys of the two peers and the fresh values drawn, in the paper's wire format with the paper's MAC for the receiver; an InitHello is answered only if it passes steps IHR1-IHR8, and the answer is the RespHello of steps RHR1-RHR7; a RespHello completes an exchange only if it passes steps RHI1-RHI7, and the answer is the InitConf of ICI3-ICI4; an InitConf completes an exchange only if its biscuit opens as load_biscuit says, carries a fresh number and passes ICR1-ICR5, and is answered by the first EmptyData of the session. Both sides then hold the transmission keys and export the WireGuard key the paper derives from the final chaining key.",
  'all servers in any state the API can reach, all peers with either protocol version, all random values, all received byte strings, all primitives that obey the laws of a KEM and an AEAD',
  'The tests run the code against itself, so any change that both sides make alike goes unnoticed; no other implementation or test vector is in the repository.',
  'papers/whitepaper.md',
  'rosenpass/src/protocol/protocol.rs: HandshakeState, initiate, handle_init_hello, handle_resp_hello, handle_init_conf, osk',
  'rosenpass/src/hash_domains.rs',
  'rosenpass/src/msgs.rs')
# C132
p('The code interoperates with every implementation of the white paper',
  "An initiator that produces its messages by the steps of the white paper, whatever program it is, completes a handshake with a server running this code that has its key registered: the InitHello is answered with a RespHello the paper's initiator accepts, its InitConf is accepted, whatever else the server did in between, and is answered with the EmptyData of the paper, and the server then holds exactly the keys of that initiator. A responder that follows the paper completes a handshake with an initiator running this code: it accepts the InitHello, every RespHello the paper lets it send is accepted, from the InitConf it recovers its own biscuit and the initiator's keys, and its EmptyData ends the handshake.",
  'all implementations of the other side given by the functions of the paper, all their random choices (session identifiers, biscuit keys, nonces and numbers, reserved bytes, cookie fields), all states of the server, all other activity of the server between the messages that leaves the handshake pending, both protocol versions, all lawful primitives',
  'Tests have only this implementation on both sides; a deviation that both sides share is invisible, and no test quantifies over the choices the paper leaves to the other side.',
  'papers/whitepaper.md',
  'rosenpass/src/protocol/protocol.rs: handle_msg, initiate_handshake, handle_init_hello, handle_resp_hello, handle_init_conf, handle_resp_conf')
# C133
p('The cookie mechanism is the one the white paper specifies',
  "A responder under load processes an InitHello exactly when its cookie field is the MAC the white paper prescribes, under the cookie value the paper derives from the cookie secret and the sender's address; every other InitHello is answered, without a change of any session, with the CookieReply of the paper: type, session identifier, and the cookie value encrypted under the paper's key with the mac field of the InitHello as additional data. An initiator that waits for an answer opens such a CookieReply, stores its cookie value, and its next transmission carries the cookie the paper prescribes. The paper's other rules: a CookieReply has 64 bytes, and the cookie field of a message without a stored cookie value is zero.",
  'all servers, all InitHello byte strings and sender addresses, all cookie secrets and their ages, all nonces, both protocol versions, all lawful primitives',
  'A test compares the two sides of this implementation with each other, for a few addresses and messages; agreement of the bytes with the specification, for all inputs, is not visible from inside.',
  'papers/whitepaper.md: Denial of Service Mitigation and Cookies',
  'rosenpass/src/protocol/protocol.rs: handle_msg_under_load, handle_cookie_reply, seal_cookie',
  'rosenpass/src/msgs.rs: CookieReply')
# C134
p('What a daemon has put out for a peer is the key its protocol server holds for it',
  "At the end of every round of the daemon, whatever rounds came before: if the protocol server holds a session key for a peer, then that key is what the peer's output file contains and what the peer's broker was last told; and if it holds none, then for that peer nothing, or only a random key, has been put out. WireGuard and the user reading the key file therefore never work with a key other than the one the handshake is in.",
  'All daemon configurations, all sequences of rounds (timer events and received messages, any contents), all peers.',
  "The server's state and the outputs are updated by different layers at different moments; a test sees some interleavings of timers and messages, not all histories.",
  'rosenpass/src/app_server.rs AppServer::event_loop, output_key',
  'rosenpass/src/protocol/protocol.rs CryptoServer::handle_msg, poll, osk')
# C135
p('The hash functions and ciphers keep the contract the protocol relies on',
  'SHAKE256, BLAKE2b, ChaCha20-Poly1305 and XChaCha20-Poly1305, as standardised (FIPS 202, RFC 7693, RFC 8439, draft-irtf-cfrg-xchacha), keep the contract that the code assumes of its primitives: digests of 32 bytes for every input; for every key, nonce, associated data and plaintext, the ciphertext is 16 bytes longer and decrypts to the plaintext; a ciphertext is accepted only if it is the encryption of the plaintext found; a rejected in-place decryption leaves the buffer as it was.',
  "All keys, nonces, associated data, plaintexts and ciphertexts of any length (for the crate's in-place functions: up to their limit of 2^38 - 65 bytes).",
  'Known-answer tests check a handful of inputs; decrypt after encrypt must hold for every length and content.',
  'ciphers/src/subtle/rust_crypto/keyed_shake256.rs',
  'ciphers/src/subtle/rust_crypto/blake2b.rs',
  'ciphers/src/subtle/rust_crypto/chacha20poly1305_ietf.rs',
  'ciphers/src/subtle/rust_crypto/xchacha20poly1305_ietf.rs')
# C136
p("The identifiers of the API's messages are those the generator derives",
  "The constants by which API messages are told apart are what the repository's generator prints for them: each is the first sixteen bytes of the BLAKE2b hash domain `Rosenpass IPC API -> Rosenpass Protocol Server -> <message>`. The constants it prints for SHAKE256 are all different from those in use.",
  'All message types (requests and responses), all KEMs.',
  "No test runs the generator; a constant pasted under the wrong name, or from the wrong half of the generator's output, still round-trips with itself.",
  'rosenpass/src/bin/gen-ipc-msg-types.rs calculate_hash_value, print_literal, Tree::gen_code_inner, main',
  'rosenpass/src/api/boilerplate/message_type.rs PING_REQUEST .. ADD_PSK_BROKER_RESPONSE')
# C137
p("The protocol's hash domains have different values",
  "The hash domains for all purposes (message authentication, cookies, peer identity, biscuits, chaining key, encryption keys, output keys), in both protocol versions, have pairwise different values, also different from the starting value, the protocol's root and the root of the chaining-key uses: for the hash functions the code uses, without any assumption about them.",
  'All pairs of purposes and protocol versions.',
  'The values are fixed by the hash functions; no test compares them, and C25 speaks of them only under the assumption that no collision is met.',
  'rosenpass/src/hash_domains.rs',
  'ciphers/src/hash_domain.rs HashDomain::mix',
  'ciphers/src/subtle/custom/incorrect_hmac_blake2b.rs')
# C138
p('A configuration file is taken as a whole or rejected',
  'If a configuration file of rosenpass or rp is accepted, then every entry of it, at every level, has the effect it names, and every setting that is not in the file has its documented default; an entry that is no setting (a misspelt name, say) leads to rejection.',
  'All TOML documents, all orders of the entries, all values.',
  'There are infinitely many files; the reading code is generated from attributes (flatten, default, deny_unknown_fields) whose combination behaves differently from what the attributes say one by one, which sample files do not show.',
  'rosenpass/src/config.rs Rosenpass, Keypair, RosenpassPeer, WireGuard, RosenpassPeerOskDomainSeparator (serde attributes), Rosenpass::load',
  'rosenpass/src/api/config.rs ApiConfig',
  'rp/src/exchange.rs ExchangeOptions, ExchangePeer')
# C139
p('A written configuration is read back as the same configuration',
  'What Rosenpass::store or commit writes of a configuration is read back by Rosenpass::load as that configuration (before ~ is expanded, C115): all peers, all options, absent and empty ones included, in whatever order the TOML writer puts the entries of tables.',
  'All configurations, all orders of table entries.',
  'Round trips are tested for two configurations; optional and flattened parts give combinatorially many shapes, and lists are unbounded.',
  'rosenpass/src/config.rs Rosenpass::store, Rosenpass::commit, Rosenpass::load (serde attributes)',
  'rosenpass/src/api/config.rs ApiConfig')
# C140
p('The WireGuard device has the key that the protocol server holds',
  'At any time, for every peer whose key goes to a WireGuard device: if the protocol server of the daemon holds an output key for the peer, and the requests to the broker are worked off, the preshared key in the device is this key; if it holds none, the preshared key in the device is the one from before the start or a random one. In particular an outdated key never stays in the device.',
  'All configurations, runs of the daemon of any length, messages and times, all ways in which the socket of the broker takes the bytes, all other peers and interfaces.',
  'The key passes through the protocol server, the event loop, the broker client with its write buffer, the privileged process and netlink; every part has its own errors and its own state, and the claim is about all histories of all of them.',
  'rosenpass/src/app_server.rs AppServer::event_loop, output_key',
  'wireguard-broker/src/api/client.rs BrokerClient::set_psk',
  'wireguard-broker/src/api/server.rs',
  'wireguard-broker/src/brokers/netlink.rs set_psk')
# C141
p('A running daemon leaves a key alone until it is due and then asks for renewal in time',
  'After an exchange with a peer, whatever else happens in the rounds of the event loop, the daemon does nothing about that peer (same file, nothing to the broker, same address, same key in force) until the key is 120 s (responder) or 130 s (initiator) old, unless the peer itself renews it. From then on, and as long as the key is not 180 s old, the daemon starts a handshake with the peer at the latest in the n-th round if it has n peers, by sending the first message to the address it knows; the old key stays in force meanwhile.',
  "All daemons in order, all numbers of peers, all sequences of rounds with all messages and times, all other peers' events.",
  'Whether a renewal comes in time depends on the whole history: on requests of the protocol server that were not carried out earlier, on the events of all other peers that compete for the rounds, and on all messages in between.',
  'rosenpass/src/app_server.rs AppServer::event_loop, tx_maybe_with, poll',
  'rosenpass/src/protocol/protocol.rs CryptoServer::poll, PeerPtr::poll, Peer::initiation_requested')
