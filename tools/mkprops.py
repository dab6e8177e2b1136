#!/usr/bin/env python3
"""Regenerates /verif/properties.jsonl (kept as a script so that anchors stay consistent)."""
import json
P="rosenpass/src/protocol/protocol.rs"
L=[]
def p(title,statement,quantifier,why,*anchors):
    L.append(dict(id=f"C{len(L)+1:02d}",title=title,statement=statement,quantifier=quantifier,why_tests_cant=why,anchors=list(anchors)))
# ---------------- core protocol
p("Key agreement",
  "If two servers are registered with each other (matching static keys, same PSK, same protocol version, same OSK domain separator) and the four handshake messages are delivered, every step succeeds, both servers report the exchange with the right peer, and `osk()` returns the same key on both sides.",
  "all server states with free session ids, all randomness, all key pairs, both protocol versions, every lawful crypto suite",
  "a test runs a handful of random handshakes from fresh servers; the claim is about every server history, every random choice and every key",
  f"{P}: CryptoServer::initiate_handshake, handle_msg, handle_initiation, handle_init_hello, handle_resp_hello, handle_init_conf, handle_resp_conf, osk")
p("InitConf replay protection",
  "Each biscuit leads to at most one key exchange: in every history, the biscuit numbers accepted from one peer are strictly increasing, so no recorded InitConf establishes a session twice.",
  "all histories of API calls and network messages, all message bytes",
  "replays can be interleaved with anything; tests try a few interleavings",
  f"{P}: handle_init_conf, Peer::biscuit_used")
p("Retransmitted InitConf is idempotent",
  "Receiving a byte-identical InitConf again yields the same EmptyData payload again and leaves sessions, handshakes and replay counters of every peer unchanged.",
  "all server states, all InitConf messages, any number of repetitions",
  "must hold in every state the server can be in when the duplicate arrives",
  f"{P}: handle_msg (InitConf branch), KnownInitConfResponsePtr, lookup_known_init_conf_response")
p("Biscuit counters are never reused",
  "Within 2^96 responses the biscuit number put in every RespHello is strictly larger than all previous ones, whichever peers the biscuits are for, and never 0: no biscuit number is issued twice.",
  "all histories of operations, all interleavings of initiations and messages",
  "nonce reuse is a property of the whole history",
  f"{P}: HandshakeState::store_biscuit, CryptoServer::biscuit_ctr", "constant-time/src/increment.rs: increment")
p("A key exchange is only reported after authentication",
  "`handle_msg` reports `exchanged_with = Some(peer)` only for a RespHello that answers that peer's current handshake and decrypts under its handshake state, or for an InitConf whose biscuit authenticates, is fresh for exactly that peer, and whose auth tag decrypts; in both cases the envelope MAC was correct.",
  "all server states, all byte strings, all randomness",
  "quantifies over every forged byte string",
  f"{P}: handle_msg, handle_resp_hello, handle_init_conf")
p("Peer isolation",
  "Processing any message changes the session, handshake, replay counter, cached response and key of at most one peer; all other peers' observable state is untouched.",
  "all server states, all messages, all pairs of distinct peers",
  "cross-talk can only be excluded by considering all states",
  f"{P}: handle_msg, IniHsPtr::insert, SessionPtr::insert, KnownInitConfResponsePtr::insert")
p("A rejected message has no effect on peers",
  "If `handle_msg` returns an error, no peer's session, handshake, replay counter or cookie store is changed.",
  "all server states, all byte strings",
  "quantifies over every malformed, truncated, forged or replayed message",
  f"{P}: handle_msg, handle_init_conf, handle_resp_hello, handle_resp_conf, handle_cookie_reply, check_seal")
p("Only correctly sealed messages are accepted",
  "A handshake message whose MAC is not the one computed for this server's public key over exactly the transmitted type, reserved bytes and payload is answered with an error: no reply is produced and no exchange reported.",
  "all server states and byte strings",
  "every bit pattern of MAC and payload is covered",
  f"{P}: Envelope::check_seal, Envelope::seal")
p("Message handling is total and panic free on network input",
  "`handle_msg` and `handle_msg_under_load` return Ok or Err for every byte string, never index out of bounds or hit an unwrap, and wrong-length inputs are rejected.",
  "all byte strings of all lengths, all reachable states",
  "fuzzing samples; totality is universal",
  f"{P}: handle_msg, handle_msg_under_load", "rosenpass/src/msgs.rs: Envelope, MsgType")
p("Responses fit the transmit buffer and bound amplification",
  "Every reply produced by `handle_msg`/`handle_msg_under_load` has the fixed length of its type, fits in MAX_MESSAGE_LEN, and a reply to an unauthenticated message is at most 40 bytes longer than the request; under load the reply is exactly as long as the request.",
  "all messages and states", "sizes must hold for each message path",
  f"{P}: handle_msg, handle_msg_under_load", "rosenpass/src/msgs.rs: MAX_MESSAGE_LEN")
p("Under load, no unauthenticated address triggers handshake work",
  "While under load, an InitHello without a cookie valid for the sender's address under an active or retired cookie secret never reaches handshake processing: no peer or biscuit state changes and the only effect is a CookieReply; RespHello, EmptyData, CookieReply and unknown types are rejected and InitConf is processed normally.",
  "all server states, all messages, all sender addresses",
  "DoS claims concern every attacker message",
  f"{P}: handle_msg_under_load, active_or_retired_cookie_secrets")
p("Cookie mechanism liveness",
  "An initiator that received a CookieReply for its InitHello retransmits an InitHello which a responder under load accepts from the same address as long as the cookie secret is still active or retired.",
  "all states, times within the epochs, all randomness", "requires the composition of two machines over time",
  f"{P}: handle_cookie_reply, apply_retransmission, seal_cookie, handle_msg_under_load")
p("Cookies are bound to the sender's address",
  "Two different host identifications get different cookies under the same secret, unless the keyed hash collides on them.",
  "all pairs of host identifications and secrets", "for all addresses",
  f"{P}: handle_msg_under_load", "rosenpass/src/app_server.rs: SocketBoundEndpoint::to_bytes")
p("Session-id index is sound",
  "In every reachable state each indexed session id or peer id refers to an existing peer; looking a session id up returns only a peer whose current handshake or session carries exactly that id; an id owned by one peer is never reassigned to another.",
  "all histories of add_peer, initiations and messages", "an invariant over unbounded histories",
  f"{P}: register_session, unregister_session_if_vacant, lookup_handshake, lookup_session", "rosenpass/src/protocol/index.rs")
p("Session-id index is complete",
  "Every live handshake and session of every peer can be found through its session id.",
  "all histories of API calls and messages and all random session ids", "an invariant over unbounded histories including id collisions",
  f"{P}: IniHsPtr::insert, SessionPtr::insert, IniHsPtr::take, SessionPtr::take")
p("Peer registration is injective",
  "Adding a peer whose peer id is already registered fails and leaves the peer list unchanged; otherwise the peer is found under its id afterwards and previously registered peers keep their pointers.",
  "all sequences of add_peer calls and keys", "for all sequences",
  f"{P}: CryptoServer::add_peer, find_peer")
p("Session life cycle thresholds",
  "A session is usable exactly from creation until REJECT_AFTER_TIME; initiators are asked to rekey after 130 s and responders after 120 s; once the session is older than REJECT_AFTER_TIME polling yields DeleteKey for that peer.",
  "all creation times and all now values", "continuous time",
  f"{P}: Mortal impls, PeerPtr::poll, CryptoServer::poll", "rosenpass/src/protocol/constants.rs")
p("Polling never misses or invents events",
  "`poll` returns an event only when it is due, returns Sleep(t) only if nothing is due before t, and every Sleep lies between EVENT_GRACE and UNENDING (so it converts to a valid Duration).",
  "all server states and times", "for all combinations of timers of all peers",
  f"{P}: CryptoServer::poll, PollResult, Wait")
p("Rekeying is requested again after a failed attempt",
  "If no handshake completes, `poll` eventually asks for another initiation.",
  "all infinite schedules", "liveness over schedules",
  f"{P}: PeerPtr::poll, initiation_requested", "rosenpass/src/app_server.rs: AppServer::event_loop_without_error_handling")
p("Retransmission back-off is bounded",
  "Each retransmission is scheduled between half and once the nominal delay, the nominal delay doubles from 0.5 s and never exceeds 10 s (an accepted cookie reply causes one immediate retransmission), the retransmitted message is the one sent first up to its trailing cookie, and a handshake that ends stops retransmitting.",
  "all retransmission counts and jitter values", "for all counts, random jitter",
  f"{P}: register_retransmission, apply_retransmission, IniHsPtr::poll")
p("EmptyData only ends the handshake if authentic",
  "The initiator stops retransmitting and treats the handshake as confirmed only on an EmptyData that decrypts under the session's receive key and is fresh; a forged EmptyData does not make the server reject the genuine one.",
  "all EmptyData messages, genuine or forged, in every order", "adversarial orderings",
  f"{P}: handle_resp_conf, Session::txnt")
p("Cookie replies only take effect if authentic",
  "A CookieReply changes the stored cookie only if it decrypts under the peer key for a handshake currently in progress.",
  "all CookieReply messages", "for all forged bytes",
  f"{P}: handle_cookie_reply", "rosenpass/src/protocol/cookies.rs")
p("OSK domain separation",
  "Two sessions with the same secrets but different OSK domain separators yield different keys, unless the keyed hash collides; equal separators yield equal keys.",
  "all domain separators and key chains", "for all strings",
  f"{P}: osk", "rosenpass/src/protocol/osk_domain_separator.rs", "rosenpass/src/hash_domains.rs")
p("Transcript binding",
  "If initiator and responder hold the same chaining key after the handshake then they agree on responder key, initiator identity, session ids, all KEM shared secrets and ciphertexts, the PSK and the biscuit, unless the keyed hash collides on the inputs of these two runs.",
  "all pairs of runs, even with an adversary in between", "for all transcripts",
  f"{P}: HandshakeState::mix, encaps_and_mix, decaps_and_mix, store_biscuit, load_biscuit")
p("Hash domains are separated",
  "Different protocol labels never lead to the same domain-separated hash value, unless the keyed hash collides.",
  "all labels, keys and data", "for all data",
  "rosenpass/src/hash_domains.rs", "ciphers/src/hash_domain.rs")
p("Protocol version separation",
  "A handshake message sealed for one protocol version is only accepted for peers configured with that version.",
  "all messages and all peer configurations", "for all messages",
  f"{P}: verify_hash_choice_match, handle_msg")
p("Biscuit keys rotate and old biscuits expire",
  "A new biscuit is only ever sealed with a biscuit key younger than BISCUIT_EPOCH (300 s); a biscuit issued at time t opens, to the same content, for at least another BISCUIT_EPOCH whatever else happens; and after every poll each biscuit key the server would open biscuits with is unset or younger than twice BISCUIT_EPOCH.",
  "all times and histories", "continuous time, all histories",
  f"{P}: active_biscuit_key, load_biscuit, BiscuitKey lifecycle")
p("Cookie secrets rotate",
  "The cookie secret used to issue cookies is younger than COOKIE_SECRET_EPOCH and cookies are only checked against secrets younger than twice that.",
  "all times and histories", "continuous time",
  f"{P}: active_or_retired_cookie_secrets", "rosenpass/src/protocol/cookies.rs")
# ---------------- encodings
p("Wire format round trip",
  "Serialising any handshake message and parsing it back yields the same message; parsing accepts exactly byte strings of the type's length, and message types are decoded one-to-one.",
  "all messages of each type, all byte strings", "for all field contents",
  "rosenpass/src/msgs.rs: Envelope, InitHello, RespHello, InitConf, EmptyData, CookieReply, MsgType")
p("increment is addition of one",
  "`increment` maps the little-endian number n to n+1 modulo 256^len.",
  "all byte arrays of all lengths", "infinitely many arrays",
  "constant-time/src/increment.rs: increment")
p("compare is integer comparison",
  "`compare` returns the sign of the comparison of the two byte arrays as little-endian numbers.",
  "all pairs of equal-length arrays", "infinitely many arrays",
  "constant-time/src/compare.rs: compare")
p("xor and memcmp",
  "`memcmp` is true iff the slices are equal (also in length); `xor` applied twice is the identity and is commutative.",
  "all byte slices", "infinitely many",
  "constant-time/src/memcmp.rs: memcmp", "constant-time/src/xor.rs: xor")
p("Length-prefix framing round trip",
  "A message written by the encoder in any number of partial writes and read by the decoder in any number of partial reads (with arbitrary interruptions) is delivered unchanged, and no byte beyond the message is consumed.",
  "all messages, all chunkings of writes and reads, all buffer sizes that fit", "all schedules of partial I/O",
  "util/src/length_prefix_encoding/encoder.rs", "util/src/length_prefix_encoding/decoder.rs")
p("Oversized frames are rejected without corruption",
  "A frame announcing more bytes than the receive buffer holds is reported as an error, never delivered, and never written past the buffer.",
  "all headers (2^64), all buffers, all chunkings", "all 64-bit lengths",
  "util/src/length_prefix_encoding/decoder.rs: message_buffer_mut, next_slice_to_write_to")
p("A frame stream is delivered in order",
  "Any sequence of frames sent over one byte stream is received as exactly the same sequence, whatever the chunking.",
  "all message sequences and chunkings", "all schedules",
  "util/src/length_prefix_encoding/decoder.rs: read_from_stdio, clear")
p("Files are loaded exactly",
  "Loading a fixed-size key accepts a file iff it has exactly the right length and then yields exactly its bytes, independently of short reads.",
  "all files and all read chunkings", "all schedules of reads",
  "util/src/file.rs: read_exact_to_end, read_slice_to_end", "secret-memory/src/secret.rs: load")
p("Base64 key files round trip",
  "store_b64 followed by load_b64 yields the same key whenever the scratch buffer is large enough.",
  "all keys of all lengths", "all keys", "util/src/b64.rs", "secret-memory/src/secret.rs: load_b64, store_b64")
# ---------------- API
p("API messages parse unambiguously",
  "Each API request/response type is identified by its 16-byte tag, tags are pairwise distinct, parsing from a prefix (suffix) uses the tag at the start of that prefix (suffix) and yields the same message that was serialised.",
  "all byte strings and messages", "all byte strings",
  "rosenpass/src/api/boilerplate/request_ref.rs", "rosenpass/src/api/boilerplate/response_ref.rs", "rosenpass/src/api/boilerplate/message_type.rs")
p("API connections answer every request once and in order",
  "Over one connection the k-th well-formed request is answered by exactly one response of the matching type, in order, regardless of how reads and writes are split; a malformed request does not affect other connections or the key exchange.",
  "all request sequences and I/O schedules", "all schedules",
  "rosenpass/src/api/mio/connection.rs: MioConnection::poll")
p("API connections are dispatched to the right slot",
  "An I/O event of a connection is dispatched to that connection, whatever connections were opened or closed before.",
  "all histories of connects, disconnects and events", "all histories",
  "rosenpass/src/api/mio/manager.rs: MioManager::add_connection, poll_particular")
p("The key pair can be supplied exactly once",
  "SupplyKeypair succeeds at most once per process; afterwards it answers KEYPAIR_ALREADY_SUPPLIED and never changes the server's keys; file descriptors attached to a request are consumed iff the request claims them.",
  "all sequences of API requests with any fds and file contents", "all histories",
  "rosenpass/src/api/api_handler.rs: supply_keypair", "util/src/build.rs: ConstructionSite")
p("ConstructionSite state machine",
  "A construction site goes Builder -> Product at most once, never back; erecting a product twice is reported and does not change it.",
  "all sequences of operations", "all histories", "util/src/build.rs: ConstructionSite::erect")
# ---------------- broker
p("Broker messages round trip",
  "A SetPsk request built from any peer id, PSK and interface name of at most 255 bytes is decoded by the broker server to the same values; longer names are refused before anything is sent.",
  "all peer ids, PSKs, interface names", "all strings",
  "wireguard-broker/src/api/msgs.rs", "wireguard-broker/src/api/config.rs", "wireguard-broker/src/api/client.rs", "wireguard-broker/src/api/server.rs")
p("Broker errors are reported faithfully",
  "The result the client sees is the result of the broker operation: success iff the PSK was set, and the error class is preserved.",
  "all broker results", "all error paths",
  "wireguard-broker/src/api/server.rs: handle_message", "wireguard-broker/src/brokers/netlink.rs")
p("Broker server ignores malformed requests",
  "A request with an unknown type byte or wrong length never reaches the inner broker.",
  "all byte strings", "all byte strings", "wireguard-broker/src/api/server.rs: handle_message")
# ---------------- app server
p("All resolved addresses of a peer are tried",
  "While no address of a peer is known to work, every resolved address is eventually tried on some socket.",
  "all address lists, socket lists and send outcomes", "all schedules of failures",
  "rosenpass/src/app_server.rs: HostPathDiscoveryEndpoint::send_scouting")
p("Isolated failures do not stop the daemon",
  "The daemon gives up only after more than ten consecutive failures; a successful iteration resets the count.",
  "all sequences of successes and failures", "all infinite schedules",
  "rosenpass/src/app_server.rs: AppServer::event_loop")
p("Peer tables stay aligned",
  "After every add_peer, successful or not, the application peer list and the protocol peer list have the same length and corresponding entries, and further add_peer calls do not panic.",
  "all sequences of add_peer calls and host-name resolution outcomes", "all histories",
  "rosenpass/src/app_server.rs: AppServer::add_peer")
p("Broker handles are unique",
  "Every registered broker keeps its handle until it is unregistered and two registered brokers never share a handle.",
  "all sequences of register/unregister", "all histories",
  "rosenpass/src/app_server.rs: register_broker, unregister_broker")
p("Load detection",
  "At any time the server is in the under-load state exactly if, in its last complete measuring period (each longer than 500 ms), more polls found events at once than had to wait, or it never came to poll because there was always something left to read; incoming messages are processed through the cookie path exactly while it is under load.",
  "all sequences of poll intervals", "all schedules",
  "rosenpass/src/app_server.rs: try_recv, DoSOperation")
p("Keys are output exactly on exchange and erased on expiry",
  "When an exchange with a peer completes and the I/O of that round succeeds, the key written to the peer's key file and handed to its broker is the OSK of that peer; on expiry a fresh random key is; no key is output otherwise, no other file changes, and the reported reason matches.",
  "all event sequences", "all histories", "rosenpass/src/app_server.rs: output_key, event_loop_without_error_handling")
p("Endpoint byte encoding is injective",
  "Two distinct (socket, address) pairs have distinct host identifications, where an IPv4 address counts as the IPv4-mapped IPv6 address and the IPv6 flow label is ignored.",
  "all socket addresses", "all addresses", "rosenpass/src/app_server.rs: SocketBoundEndpoint::to_bytes")
# ---------------- config / cli
p("Argument parsing never panics and accepts every documented combination",
  "`parse_args` returns Ok or Err for every argument list; any combination of documented peer options given once each is accepted and stored in the peer.",
  "all argument lists", "infinitely many lists", "rosenpass/src/config.rs: Rosenpass::parse_args")
p("Validated configurations can output keys",
  "If `validate` succeeds, every peer has a key output file or a WireGuard device and peer, and its OSK organisation and label are both set or both unset.",
  "all configurations", "all combinations", "rosenpass/src/config.rs: Rosenpass::validate, org_and_label")
p("rp command line parsing",
  "`rp` accepts exactly one command, peers are kept in order with their own options, and unknown options are rejected.",
  "all argument lists", "infinitely many lists", "rp/src/cli.rs: Cli::parse, ExchangeOptions::parse, ExchangePeer::parse")
p("Key generation never destroys keys and survives crashes",
  "Generating keys never overwrites existing key files; after a crash at any point a re-run leaves a complete matching key pair.",
  "all initial directory states and all crash points", "all crash points",
  "rp/src/key.rs: genkey", "rosenpass/src/cli.rs: GenKeys, generate_and_save_keypair")
# ---------------- secret memory, util
p("Secret buffers are handed out zeroed and released zeroed",
  "A freshly created Secret is all-zero whatever secrets were dropped before, and memory returned to the pool contains no secret bytes.",
  "all histories of allocations, writes and drops, all sizes", "all histories",
  "secret-memory/src/secret.rs: SecretMemoryPool, Secret")
p("Secret files are not readable by others",
  "Files created by store_secret have mode 0600 at all times during and after the call.",
  "all prior file-system states", "depends on prior state", "util/src/file.rs: fopen_w", "secret-memory/src/secret.rs: store_secret")
p("Cleanup jobs are awaited",
  "When a janitor scope ends, all cleanup jobs spawned in it, including jobs spawned by other cleanup jobs, have finished.",
  "all schedules of tasks", "all schedules", "util/src/tokio/janitor.rs")
p("File-descriptor passing preserves order and bounds",
  "Descriptors queued for sending are received in order, at most MAX_FDS are held at a time, and on a claim failure none of the batch stays open.",
  "all queues, all partial writes and failures", "all schedules",
  "util/src/mio/uds_send_fd.rs", "util/src/mio/uds_recv_fd.rs")
p("Non-blocking I/O helpers classify errors correctly",
  "`nonblocking_handle_io_errors` retries Interrupted forever, maps WouldBlock to None and passes every other result through unchanged.",
  "all finite sequences of outcomes", "all schedules", "util/src/io.rs")
p("Slice copy helpers",
  "copy_slice and friends copy exactly the documented part and report a size mismatch instead of truncating, for every length.",
  "all slices", "all lengths", "to/src/ops.rs", "util/src/mem.rs")
exec(open(__file__.replace("mkprops.py","moreprops.py")).read()) if __import__("os").path.exists(__file__.replace("mkprops.py","moreprops.py")) else None
with open(__file__.replace("tools/mkprops.py","properties.jsonl"),"w") as f:
    for x in L: f.write(json.dumps(x,ensure_ascii=False)+"\n")
print(len(L))
