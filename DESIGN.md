# Formal model of rosenpass/rosenpass in Lean 4

(Generated by tools/mkdesign.py from tools/design_head.md, tools/methods.py, tools/design_tail.md, properties.jsonl,
MANIFEST.json and the axioms reported by Lean.)

## 1. Trusted base

* Lean 4.33.0's kernel. The theorems depend on no axioms but `propext`, `Classical.choice` and `Quot.sound` (section 9
  lists them per theorem). No axioms of our own, no compiled-code evaluation; `decide +kernel` appears in concrete
  examples and witnesses only (and in one table of 64 base64 characters), and is checked by the kernel.
* That the Lean definitions under `lean/Verif/Model` say what the Rust text says. Each definition cites the file and
  lines it models and states its simplifications. Nothing was executed: the correspondence is by reading.
* The assumptions about the world outside the code, section 3.

The files in `lean/Verif/Model` are the model, those in `lean/Verif/Thm` the specifications and proofs. Where a theorem
needs a vocabulary of its own (what a peer "sees", what a configuration "means", what the environment may do), it is
defined just before the theorem, independently of the functions that are proved correct.

## 2. Modelling conventions

* Bytes are `List UInt8`. Fixed-size arrays are lists; their lengths are tracked by predicates.
* `fn f(&mut self, ..) -> Result<T>` becomes `S -> Except Err T × S`: **the state after an error is kept**, as in Rust,
  so that "an error changes nothing" is a theorem (or a refuted claim), not an artefact of the model.
* `panic!`, `unwrap`, index out of bounds, and arithmetic overflow where it can occur, are explicit outcomes, so panic
  freedom is a theorem. (Release builds wrap on overflow, debug builds panic; where it matters the comment says which.)
* Randomness and time are inputs of every operation, hence universally quantified. One call reads the clock once (Model/F64
  models the two readings of a life cycle).
* Time is an integer number of ticks of 100 µs (all constants are multiples of it); in the code it is an `f64` number of
  seconds: Model/F64 models the rounding, and C125 bounds the difference.
* `HashMap` is a partial function (or an association list with the map laws); iteration order is never relied on.
* I/O is a schedule: the environment chooses, for each `read`, `write`, `accept` …, how much is transferred and which
  error occurs. Concurrency (tokio tasks, threads, other processes) is an arbitrary interleaving of atomic steps; each
  model says what is atomic.
* A crash may happen at every step of the models that speak about crashes (KeyGen, RpDevice).

## 3. Assumptions about the environment

* **Primitives.** SHAKE256, BLAKE2b, the AEADs and the KEMs are parameters (`structure Crypto`). `Crypto.Lawful` lists
  the functional laws theorems may use (output lengths, decryption inverts encryption, decapsulation inverts
  encapsulation); `Toy.crypto` satisfies them, so no theorem is vacuous. `KemTotal` (liboqs reports no error; an error is
  a panic) is a separate hypothesis where used. C95 derives the AEAD laws from those of the crate's detached AEAD.
* **Collisions.** No theorem assumes a hash function to be injective. Statements that depend on collision resistance
  are reductions: the conclusion holds, or two different inputs with equal hash are exhibited among listed queries.
* **Symbolic model** (C92–C94). Perfect cryptography: terms of a free algebra, an attacker who controls the network, may
  compromise long-term keys, pre-shared keys, ephemeral keys, coins and biscuit keys at any time, and takes part as any
  number of peers. This is an idealisation: no claim of computational soundness. Envelopes, MACs, cookies, timeouts and
  the biscuit-number check are left out, which only adds behaviours; the replay check is in C02 at byte level.
  `Thm/SymbolicLink` proves that each symbolic step evaluates to what the byte-level handlers compute.
* **Linux.** mio's readiness is edge triggered as documented (Recv); `SCM_RIGHTS` semantics of `sendmsg`/`recvmsg`
  (FdPass); regular files answer `Ok(0)` only at their end (FileIO); `st_mode` bits and umask (FileIO, KeyGen); link names
  are unique and interface indices are not reused (RpDevice); WireGuard's netlink interface sets the pre-shared key of the
  named peer or reports an error (Broker); `wg` does what its manual says (NativeUnix, RpExchange).
* **Crates.** base64, base64ct and postcard are specified, not modelled. `zerocopy` views: bytes of the right length
  (and alignment, where not packed) are viewed in place. tokio: tasks run in any order; a task-local is not inherited by
  `spawn`; `mpsc` channels are FIFO queues. `zeroize` is taken at its word. `SocketAddr` parsing, printing and name
  resolution are parameters. clap, TOML and serde data formats are not modelled.
* **Startup.** Files and name resolution do not change between `validate` and the start (C79).

## 4. Properties: what is modelled and how it is proved

Status P: proved as stated. p: partial; the full statement is false of the code (a counterexample is a theorem, listed in MANIFEST.json) and the strongest true part is proved under a `_partial` name.

| Property | Status | Model | Proof |
|---|---|---|---|
| C01 Key agreement | P | Handshake, Server, HashDomain, Msgs | symbolic execution of the four handlers over arbitrary well-formed states with the functional laws of AEAD and KEM; `key_agreement_interleaved` allows arbitrary other operations between the messages, using invariants over operation histories |
| C02 InitConf replay protection | P | Handshake, Poll | invariant over all operation histories: the accepted biscuit number of a peer strictly increases; a recorded InitConf is refused |
| C03 Retransmitted InitConf is idempotent | P | Handshake, Poll | analysis of the cached-response path; equality of the bytes sent and of the session |
| C04 Biscuit counters are never reused | P | Handshake, ConstantTime, Poll | `increment` is +1 on the integer, induction over histories |
| C05 A key exchange is only reported after authentication | P | Handshake | inversion of every path of `handle_msg` that reports an exchange |
| C06 Peer isolation | P | Handshake, Poll | frame lemma per handler: only the addressed peer changes |
| C07 A rejected message has no effect on peers | p | Handshake | inversion; witnesses for the paths where an error leaves effects |
| C08 Only correctly sealed messages are accepted | P | Handshake, Msgs | inversion: every accepting path checked the seal |
| C09 Message handling is total and panic free on network input | P | Handshake, Poll, Msgs | panic is an explicit outcome; shown unreachable under the state invariant (`Thm/Invariant`), given that liboqs reports no error (`KemTotal`) |
| C10 Responses fit the transmit buffer and bound amplification | P | Msgs, Handshake | length calculation |
| C11 Under load, no unauthenticated address triggers handshake work | P | Handshake | inversion of `handle_msg_under_load` |
| C12 Cookie mechanism liveness | P | Handshake, Poll | composition of the two machines: reply, retransmission, acceptance |
| C13 Cookies are bound to the sender's address | P | HashDomain | unconditional reduction: equal cookie values give equal inputs or an explicit hash collision |
| C14 Session-id index is sound | P | Server, Poll | invariant of the index over histories |
| C15 Session-id index is complete | p | Server, Poll | invariant up to collisions of session ids; the collision is the counterexample |
| C16 Peer registration is injective | P | Server | induction on registrations |
| C17 Session life cycle thresholds | P | Poll | linear arithmetic over ticks |
| C18 Polling never misses or invents events | P | Poll | induction over `poll` and over runs of polls; the wait returned is exact |
| C19 Rekeying is requested again after a failed attempt | p | Poll | analysis of the `rekey` state; witness run |
| C20 Retransmission back-off is bounded | P | Poll, Handshake | induction over retransmissions; delays are computed in integer ticks, rounded down |
| C21 EmptyData only ends the handshake if authentic | p | Handshake | inversion; witness |
| C22 Cookie replies only take effect if authentic | p | Handshake | inversion; witness (the buffer handling of the AEAD is C95) |
| C23 OSK domain separation | P | HashDomain | reduction to collisions |
| C24 Transcript binding | P | Handshake, HashDomain | what each side hashes is written down independently (`InitiatorSees`, `ResponderSees`); equal keys give equal transcripts or a collision |
| C25 Hash domains are separated | P | HashDomain | prefix-freeness of the domain tree, reduction to collisions |
| C26 Protocol version separation | P | Handshake | inversion |
| C27 Biscuit keys rotate and old biscuits expire | P | Server, Poll, Handshake | invariant on the two keys and their ages over histories |
| C28 Cookie secrets rotate | p | Server, Handshake | as C27; witness |
| C29 Wire format round trip | P | Msgs | round trip in both directions |
| C30 increment is addition of one | P | ConstantTime | induction on bytes |
| C31 compare is integer comparison | P | ConstantTime | induction on bytes |
| C32 xor and memcmp | P | ConstantTime | induction on bytes |
| C33 Length-prefix framing round trip | P | LengthPrefix | refinement: for every schedule of partial reads and writes the byte stream is the frame |
| C34 Oversized frames are rejected without corruption | P | LengthPrefix | inversion |
| C35 A frame stream is delivered in order | P | LengthPrefix | induction on the list of frames |
| C36 Files are loaded exactly | P | FileIO | induction over the read schedule |
| C37 Base64 key files round trip | P | FileIO | induction over 3-byte groups; store then load |
| C38 API messages parse unambiguously | p | ApiMsgs | inversion of the parsers; witness |
| C39 API connections answer every request once and in order | p | Api, ApiMsgs, LengthPrefix, App | simulation of a connection by a queue of requests and answers, over all I/O schedules; witnesses |
| C40 API connections are dispatched to the right slot | p | ApiManager | invariant over event histories; witnesses |
| C41 The key pair can be supplied exactly once | P | Api, App, Build | invariant over histories |
| C42 ConstructionSite state machine | P | Build | case analysis over all call sequences |
| C43 Broker messages round trip | P | Broker | round trip |
| C44 Broker errors are reported faithfully | p | Broker | case analysis over broker and kernel results; witnesses |
| C45 Broker server ignores malformed requests | P | Broker | inversion |
| C46 All resolved addresses of a peer are tried | p | Endpoint | counting argument over scout rounds; witness |
| C47 Isolated failures do not stop the daemon | p | App | invariant of the failure counter over loop iterations; witness |
| C48 Peer tables stay aligned | p | App | invariant over histories; witness |
| C49 Broker handles are unique | p | App | invariant over histories; witnesses |
| C50 Load detection | P | Recv, App | exact characterisation by the last complete measuring period |
| C51 Keys are output exactly on exchange and erased on expiry | P | App | every output of a key is justified (soundness), and every exchange is output (completeness) |
| C52 Endpoint byte encoding is injective | P | Endpoint | injectivity by cases over address kinds |
| C53 Argument parsing never panics and accepts every documented combination | p | Config | inversion of the argument loop; grammar of accepted lines; witnesses |
| C54 Validated configurations can output keys | P | Config | both directions against an independent specification |
| C55 rp command line parsing | p | RpCli | both directions against a grammar; witness |
| C56 Key generation never destroys keys and survives crashes | p | KeyGen, FileIO | state machine with a crash possible at every step; witnesses |
| C57 Secret buffers are handed out zeroed and released zeroed | P | SecretMem | invariant of the pool over all operation histories |
| C58 Secret files are not readable by others | p | FileIO | mode calculation; witness |
| C59 Cleanup jobs are awaited | p | Janitor | invariant and termination measure over all task interleavings; witnesses |
| C60 File-descriptor passing preserves order and bounds | P | FdPass | queue invariant over all schedules of writes and reads |
| C61 Non-blocking I/O helpers classify errors correctly | P | FileIO | induction over call outcomes |
| C62 Slice copy helpers | P | FileIO | list calculation |
| C63 Base64 key files are only accepted when they hold a whole key | p | FileIO | inversion; witness |
| C64 Finished initiator handshakes hold no chaining key | P | Handshake, Poll | invariant over histories |
| C65 Polling starves no peer | P | Poll | invariant on the cursor; every peer is served within one round |
| C66 Building the protocol server is exact | P | Build | both directions |
| C67 Every address is tried from every local socket during discovery | p | Endpoint | arithmetic modulo the two table sizes; witness |
| C68 Restarting discovery keeps every known address | P | Endpoint | case analysis |
| C69 The event loop never panics | p | App | panic outcome unreachable under the invariant; witness |
| C70 No key event is lost when I/O fails | p | App | as C51; witnesses |
| C71 The server does not sleep while a datagram waits | p | Recv | invariant relating unread datagrams and edge-triggered readiness; witness |
| C72 Datagrams reach the protocol in order, once, and without omission | P | Recv | history of deliveries is the arrival order per socket |
| C73 No listen socket is starved | p | Recv | measure on the backlog; witness |
| C74 Keys sent through the broker socket are set in order and unaltered | P | Broker, LengthPrefix | composition of client, byte stream and privileged process for every I/O schedule |
| C75 Broker answers go to the client that asked | P | BrokerSocket | invariant over all interleavings |
| C76 A broker client cannot block the others | p | BrokerSocket | termination measure and invariant; witness |
| C77 The privileged broker handles messages in order | P | Broker | induction on the stream |
| C78 rp pubkey exports the public halves of the keys it read, and only those | P | KeyGen | state machine; frame |
| C79 A validated configuration starts, with exactly the configured peers | p | Startup, Config, App | both directions against an independent specification; witness |
| C80 The server listens where it was told to | P | Startup | case analysis of the listen addresses |
| C81 Secrets are independent values | P | SecretMem | simulation of the memory model by independent values |
| C82 Secret memory is never shared, used after free or given to the wrong allocator | P | SecretMem | invariant: no fault state is reachable |
| C83 Keys handed to `wg` go to the right peer and never appear on a command line | p | NativeUnix | execution of the command with a model of its effects; witness |
| C84 Broker configurations survive serialisation | p | NativeUnix | round trip of varint/postcard and base64; witnesses |
| C85 rp touches no network device but its own, and removes that | p | RpDevice | invariant over all interleavings with other processes and failures; witness |
| C86 Length-prefix buffers check every length and position | p | LengthPrefixApi | call-by-call specification with 64-bit arithmetic; witnesses |
| C87 rp exchange sets up what its options say | p | RpExchange | both directions against the options; witnesses |
| C88 Datagrams go only where the peer is | P | App, Endpoint | invariant over loop histories: who learns which address from what |
| C89 The daemon stops on the termination signal | P | App | inversion of the loop |
| C90 Each API request has exactly its documented answer and effect | p | Api | case analysis with the literal status codes; witnesses |
| C91 API clients cannot bring down the daemon by connecting and disconnecting | p | ApiManager | invariant until the first close; witnesses |
| C92 Who completes a handshake, completes it with the configured peer (mutual agreement) | P | Symbolic, Handshake | invariant over all traces of a Dolev-Yao network with unbounded servers, peers and sessions and adaptive compromise; tied to the byte-level functions by evaluation lemmas (`Thm/SymbolicLink`) |
| C93 Output keys stay secret, also after later compromise (forward secrecy) | P | Symbolic, Handshake | as C92; exact characterisation of when the attacker knows a key |
| C94 Different handshakes have different output keys | P | Symbolic | invariant over traces; key derivation is injective on terms |
| C95 AEAD calls and their buffers | p | Aead | case analysis over all lengths; link to the abstract AEAD of Crypto; witness |
| C96 Serialized keys | P | Serialization, FileIO | round trip and inversion |
| C97 Two daemons configured for each other put out the same key | P | App, Handshake, Poll, FileIO | composition of C01 with the rounds of the event loop |
| C98 Type-level integers convert to the constants they denote | P | Model/Typenum.lean: the trait implementations as recursive functions into bit vectors | induction over the binary number; no carry out of the added bit; the rotated one is the signed minimum |
| C99 A handshake completes although messages are lost, repeated or delayed and third parties interfere | P | Server of Model/Handshake.lean and Model/Poll.lean; histories Along with LeavesHandshake, LeavesSession, LeavesOpen (Thm/Recovery.lean) | key_agreement_resent for the four messages; induction over the history for the pending handshake, the session and the last accepted biscuit number; biscuit_stays_valid for the biscuit key; retransmitted_conf_idempotent for repeated InitConf. |
| C100 A cookie vouches for one message from one address, a seal for one message to one receiver | P | macOf, cookieOf, cookieValueFor, cookieKey, handleMsgUnderLoad, handleCookieReply of Model/Handshake.lean | injectivity of two nested hashes up to a 16-byte collision; under_load_gate for the accepted cookie; handleMsg_ok_sealed for the seal; cookieReply_effect_partial and cookie_secret_rotation_partial for the reply. |
| C101 Secret memory comes from and goes back to one allocator, aligned, and failures leak nothing | P | Model/SecretAlloc.lean: the heap of memsec's live blocks, allocate, deallocate, boxes | arithmetic of the alignment; invariant (live blocks = boxes held) by induction over the history |
| C102 Typed views of buffers cover exactly the bytes they should | P | Model/RefMaker.lean: slices as windows of one buffer with an address | case analysis and list arithmetic |
| C103 Results written to a destination: all calling styles agree, errors discard the destination | P | Model/To.lean: a destination function as a partial function on destinations | case analysis |
| C104 A connection of the API server is given back when its client hangs up | p | Model/Api.lean, Model/ApiManager.lean | state at rest is preserved by polls at the end of the stream (from the exact specification of a poll); induction over the rounds |
| C105 An initiated handshake starts at most one session | P | Model/Server.lean, Model/Handshake.lean, Model/Poll.lean | invariant: no peer waits for a RespHello under the id; preserved by every call but an initiation drawing that id |
| C106 A handshake with a responder under load completes | P | Model/Server.lean, Model/Handshake.lean | composition of C12 and C99 |
| C107 Claimed file descriptors: own, masked, never leaked | P | Model/Fds.lean | case analysis over the system calls; invariant over histories |
| C108 API sockets given by descriptor number | p | Model/Fds.lean | one lemma per socket, composed over the three loops; counterexamples by evaluation |
| C109 The broker client flushes its queue in blocking mode | p | Model/BrokerFlush.lean, Model/Broker.lean, Model/Fds.lean | refinement of the client model by the descriptor table; induction over the outcomes of the writes |
| C110 Identity hiding against an observer of the network | p | Symbolic payloads of all four messages (Model/Symbolic.lean, computed by the same functions as in C92); tests are pairs of computations over what was observed. The envelope at byte level (Model/Handshake.lean). | A relation between the values of two runs that is functional in both directions and closed under all constructions and destructions; the ciphertext keys contain an encapsulated secret that nobody can compute. The seal: unfolding and reduction to a 16-byte collision. |
| C111 A responder never locks itself out of its own biscuits | P | Server, Handshake, Poll | induction over the history; every accepted number was opened from a biscuit, every biscuit sent carries a smaller number than the counter has afterwards |
| C112 Two daemons put out the same key although the network loses, repeats and delays datagrams | P | App (rounds of the event loop), Handshake, Poll, Server | composition of `completes_despite_loss` with `due_message_sent`, `gets_answer`, `gets_exchange`; re-instantiation at every stage |
| C113 The exit status of `rosenpass` tells whether the command succeeded | p | Model/Cli | case analysis of the whole command; induction over the files of validate |
| C114 A daemon started from the command line runs what it was told | P | Model/Cli, Model/Startup, Model/Config | composition of startup_exact and validate_exact over all commands |
| C115 `~` in the paths of a configuration file means the home directory | p | Model/Cli | induction over paths; the sequence of names is the specification |
| C116 A saved configuration starts the same daemon | p | Model/Cli | unfolding of both runs |
| C117 No command replaces an existing file unless told to | p | Model/Cli, Model/KeyGen | case analysis over all commands |
| C118 Log level options set the level the help text names | p | Model/Cli | unfolding |
| C119 `rp`: the exit status tells success and no existing file is changed | p | Model/RpMain, Model/KeyGen, Model/RpCli, Model/RpExchange | case analysis of the whole command over the theorems on its parts |
| C120 Two hosts set up with `rp` as the manual says are linked | P | Model/RpMain, Model/KeyGen, Model/RpExchange, Model/App | composition of genkey, pubkey and exchange; induction over rounds |
| C121 Message buffers keep nothing of messages that are done with | p | Model/LengthPrefix, Model/Api, Model/Broker | invariant of the buffers over all histories of a connection |
| C122 Debug text tells nothing about secrets | P | Model/Debug | every state has the text of its censored version |
| C123 Debug text identifies public values | p | Model/Debug | induction over the bytes |
| C124 Comparison, xor and increment run in constant time | P | Model/CtCode | soundness of a syntactic criterion over the observation semantics; loop invariants for the results |
| C125 Rounding does not disturb the life cycles | P | Model/F64 | grid argument for the error of one rounding; sums of errors; monotonicity |
| C126 A key stays in force until it is renewed, and it can be renewed for ever | P | Model/Server, Model/Handshake, Model/Poll | Invariant AtRest kept by every call; the round composes poll_run_exact and completes_despite_loss (C99); RenewsOften is a game played n times, won by induction on n. |
| C127 Crossed handshakes end with the same key | p | Model/Handshake, Model/Poll: two servers, all calls of a crossed round. | Apply the single-handshake theorem (with arbitrary other calls in between) to each of the two handshakes, with the messages of the other as the calls in between; induction on the number of rounds. |
| C128 The broker processes end with the daemon | p | Model/BrokerSpawn.lean: descriptor tables of the processes, get_broker_socket, claim_fd, start of the privileged broker | invariants over all event sequences: which processes may hold which file |
| C129 The end of the privileged broker is noticed | p | Model/BrokerHandler.lean over Model/BrokerSocket.lean: the handler with the end of the privileged broker, of the worker task and of the process | invariants over all event sequences; a state of rest is reached by a weight that every internal step lowers |
| C130 Both WireGuard devices get the key that was agreed on | P | Composition of Model/App.lean (outputs), Model/Broker.lean (client, privileged broker, netlink); no new model. Specification: `pskOf`, `keysFor`, `Carried` and `Feeds` in Thm/Device.lean. | The outputs for a broker become the queued requests of the client (invariant of the client), these become the calls of the inner broker in the same order (framing), and each of these changes one key of the device (induction over the calls). |
| C131 The handshake is the one the white paper specifies | P | `Model/Paper.lean` (specification), `Model/Handshake.lean`, `Model/Server.lean`, `Model/HashDomain.lean`, `Model/Msgs.lean` | Case analysis of a successful call down to the six handshake functions; each of them is rewritten, mix by mix, into the paper's step with the lemmas that identify the code's precomputed hash domains with the paper's `lhash` label lists; the envelope by the layout lemmas of C29. |
| C132 The code interoperates with every implementation of the white paper | P | `Model/Paper.lean` (specification), `Model/Handshake.lean`, `Model/Server.lean` | The two sides of the paper are shown to fit together (AEAD and KEM correctness); the code accepts what passes the paper's checks (the equations of C131 read backwards), then the success lemmas of the handlers used for C01. |
| C133 The cookie mechanism is the one the white paper specifies | p | `Model/Paper.lean` (specification), `Model/Handshake.lean`, `Model/Server.lean` | The cookie functions of the paper are written down from its text; the code's computations are shown equal to them and the branches of the two handlers followed. |
| C134 What a daemon has put out for a peer is the key its protocol server holds for it | p | `Model/App.lean`, `Model/Handshake.lean`, `Model/Poll.lean` | Invariant over rounds: per peer, the server's key equals what the outputs show. Each message and each poll is shown to change the key only in the cases in which the daemon then calls output_key; the outputs of other peers do not touch this peer's file or broker slot. |
| C135 The hash functions and ciphers keep the contract the protocol relies on | P | `Model/Keccak.lean`, `Model/Blake2b.lean`, `Model/ChaCha.lean` | XOR with a key stream at least as long as the text is an involution; the tag is a function of key, nonce, associated data and ciphertext. Known answers evaluated by the kernel. |
| C136 The identifiers of the API's messages are those the generator derives | P | `Model/GenIpc.lean`, `Model/Blake2b.lean`, `Model/Keccak.lean`, `Model/ApiMsgs.lean` | Structural evaluation of the generator for arbitrary hash functions, then kernel evaluation of BLAKE2b and SHAKE256 on the paths. |
| C137 The protocol's hash domains have different values | P | `Model/HashDomain.lean`, `Model/Keccak.lean`, `Model/Blake2b.lean` | Kernel evaluation of the hash functions along the tree of labels; comparison of the table's entries. |
| C138 A configuration file is taken as a whole or rejected | p | `Model/ConfigToml.lean` | Lookup lemmas for tables with distinct keys; the flattened structs are shown to take exactly their entries if all values fit; then field by field. |
| C139 A written configuration is read back as the same configuration | P | `Model/ConfigToml.lean`, `Model/Cli.lean` | Tables related by lookup (Same); each field is read back from the related table; flattened parts through the lemma on entries taken. |
| C140 The WireGuard device has the key that the protocol server holds | p | Composition of Model/App, Model/BrokerSocket, Model/BrokerHandler, Model/Broker. | The invariant of C134 gives the last key handed to the broker; splitting the outputs at it, C130 gives the device state. |
| C141 A running daemon leaves a key alone until it is due and then asks for renewal in time | p | Composition of Model/App, Model/Poll, Model/Server. | One round keeps the peer at rest (C126's invariant) and brings its turn closer (C65's measure); induction over the rounds. |

## 5. Map of the model

| Model | Code |
|---|---|
| Base, ConstantTime | constant-time/src |
| Crypto, Aead, HashDomain | ciphers/src, cipher-traits/src, oqs/src (as parameters), rosenpass/src/hash_domains.rs, protocol/osk_domain_separator.rs |
| Msgs | rosenpass/src/msgs.rs |
| Server, Handshake, Poll | rosenpass/src/protocol/{protocol,cookies,index,timing,constants,zerocopy}.rs |
| Build | util/src/build.rs, rosenpass/src/protocol/build_crypto_server.rs |
| Symbolic | the handshake of protocol.rs, over terms |
| LengthPrefix, LengthPrefixApi | util/src/length_prefix_encoding |
| FileIO, Serialization | util/src/{file,b64,io,mem}.rs, to/src/ops.rs, secret-memory/src/{file,secret,public,serialization}.rs |
| To | to/src |
| RefMaker | util/src/zerocopy, util/src/zeroize |
| Typenum | util/src/typenum.rs |
| SecretMem, SecretAlloc | secret-memory/src/{secret,policy,alloc} |
| Endpoint, App, Recv, Startup | rosenpass/src/app_server.rs, rosenpass/src/cli.rs |
| Config | rosenpass/src/config.rs |
| Cli | rosenpass/src/{main,cli,config}.rs, rosenpass/src/api/cli.rs |
| Fds | util/src/fd.rs |
| KeyGen | rosenpass/src/cli.rs, rp/src/key.rs |
| ApiMsgs, Api, ApiManager | rosenpass/src/api |
| FdPass | util/src/mio/{uds_send_fd,uds_recv_fd}.rs, util/src/fd.rs in part |
| Broker, BrokerSocket, BrokerHandler, BrokerFlush, BrokerSpawn, NativeUnix | wireguard-broker/src |
| RpCli, RpDevice, RpExchange | rp/src/{cli,exchange}.rs |
| RpMain | rp/src/{main,main_supported_platforms}.rs |
| Debug | secret-memory/src/debug.rs, `Debug` of secret-memory/src/{secret,public}.rs, of rosenpass/src/protocol/*, of wireguard-broker/src/brokers/native_unix.rs |
| F64 | rosenpass/src/protocol/timing.rs, util/src/time.rs and the life cycles of protocol.rs (1611-1735, 1836-1851) in floating point arithmetic |
| CtCode | constant-time/src/* as imperative code with observations |
| Janitor | util/src/tokio/janitor.rs |
| GenIpc | rosenpass/src/bin/gen-ipc-msg-types.rs |
| ConfigToml | rosenpass/src/config.rs, rosenpass/src/api/config.rs, rp/src/exchange.rs: serde attributes (reading and writing TOML values) |
| Keccak, Blake2b, ChaCha | the standards FIPS 202, RFC 7693, RFC 8439, draft-irtf-cfrg-xchacha, which the crates behind ciphers/src/subtle/rust_crypto implement |
| Paper | papers/whitepaper.md and its figures: a specification, not a model of code |

## 6. Not modelled

Memory safety of `unsafe` blocks (beyond the ownership discipline of secret memory, C81/C82), timing side channels beyond the observations of C124 and
the effect of `black_box`, the internals of the KEMs and of the crates that implement hash functions and ciphers (the standards are: C135), the text of log lines (beyond the debug texts of C122), clap's argument definitions (and the
`--generate-manpage` and `--print-completions` output),
the text of TOML files (their values are: C138, C139) and of the other serde formats, the exponent range of floating point numbers, test and benchmark code, test vectors (`TV` parameters are the no-op
implementation), `util/src/{functional,option,controlflow}.rs` (language sugar without behaviour
of their own: the models use the expanded meaning), Windows and macOS variants.

## 7. Checking the model against a recorded run of the code

The repository holds a recording of a handshake: rosenpass/.test_vectors/crypto_server_test_vector_1.toml, made and replayed by
rosenpass/tests/test_vector_crypto_server.rs, with all random values, all messages and the exchanged key. `Thm/Recorded.lean` replays it in the model:
`Verif.Recorded.recorded_run` says that the protocol server of the model, with SHAKE256, ChaCha20-Poly1305 and XChaCha20-Poly1305 as in their standards, turns the
recorded random values into the recorded InitHello, RespHello, InitConf and EmptyData, byte for byte, and into the recorded key on both sides. Evaluated by the kernel. Not recomputed:
the key encapsulations, and the nine hashes whose input contains a static public key of 524160 bytes (they come from Python's hashlib and the recorded keys). This is a test of the model, one run,
and not listed as a property. Even the bytes of an old message that the code leaves in the cookie field of the EmptyData (C121) are reproduced.

## 8. Checking the theorems against wrong programs

`seeded/LOG.jsonl` holds one line per edit of a model definition: the edit, the claim it breaks, which theorems failed and
which claimed theorems depend on them, and what was tightened when nothing failed. Survivors led to new theorems
(e.g. C86, C88–C90, `with_keypair_first`, `closed_after_last_answer`), or are equivalent programs, and the log says which.

## 8. Where the code does not keep a property

* **C07 A rejected message has no effect on peers.** The full statement is false of the code; the counterexamples are proved (rejected_not_without_effect, rejected_other_effects). The partial theorem lists exactly which rejected messages may leave an effect and on what.
* **C15 Session-id index is complete.** Full completeness is false of the code (initiating again with the very same random session id drops the index entry; witness proved as index_incomplete). Proved for histories in which a freshly drawn session id differs from the one being replaced.
* **C19 Rekeying is requested again after a failed attempt.** Holds for every history in which the application answers each request with a successful initiate_handshake. False in general: a request the application ignores (or whose initiation fails) is never repeated (proved).
* **C21 EmptyData only ends the handshake if authentic.** First half proved. Second half is false of the code: a forged EmptyData with a large counter makes the genuine one stale (witness proved); proved for counters not larger than the genuine one.
* **C22 Cookie replies only take effect if authentic.** False of the code as stated: a CookieReply that fails to decrypt overwrites the stored cookie and its age (witness proved); nothing else changes (proved), and accepted ones are authentic (proved).
* **C28 Cookie secrets rotate.** The half of the claim about issuing is false of the code: a secret between 120 s and 240 s old still issues cookies (old_secret_issues_cookies). Proved: no secret older than 240 s is used to issue or accept.
* **C38 API messages parse unambiguously.** False of the code for the suffix parser, which takes the type from the prefix (witness proved), and for buffers that are not 16-byte aligned (proved). Proved in full for exact and prefix parsing of aligned buffers.
* **C39 API connections answer every request once and in order.** Proved: on every history, answers are exactly the answers to a prefix of the requests, in order, whatever the split of reads and writes, and with a cooperating kernel every well-formed request is answered; connections do not mix. False of the code: a malformed request makes its connection fail for ever, and with it every later pass over the connections (both proved).
* **C40 API connections are dispatched to the right slot.** False of the code: connections are entered in the token table as listeners, so an event of a connection is never dispatched to it and panics when there is no listener of that number (proved). Proved: a full pass that succeeds polls every connection.
* **C44 Broker errors are reported faithfully.** Proved: answers carry the result code exactly, and the netlink broker's success means the key was set provided the peer exists when the device is changed. False of the code: a missing interface is never reported as such, a peer removed in between is reported as success, and a client that has read one answer never sees another one (all proved).
* **C46 All resolved addresses of a peer are tried.** False of the code in general: an address to which no socket can send uses up the shared socket iterator, and later addresses are never tried (witness proved).
* **C47 Isolated failures do not stop the daemon.** Proved: the daemon gives up exactly at the eleventh failure in its lifetime. The claim is false of the code because successes never reset the counter (proved for any number of successes in between); a remote party that makes answers undeliverable causes such failures.
* **C48 Peer tables stay aligned.** Proved for every history in which host names resolve. False otherwise: an unresolved host name leaves the tables misaligned and the next add_peer panics (proved).
* **C49 Broker handles are unique.** Proved for every history in which handles are taken back in the opposite order of registration and registrations with the poll succeed. False otherwise (both witnesses proved).
* **C53 Argument parsing never panics and accepts every documented combination.** Proved: no panic on any argument list; every documented line in which no peer has both an endpoint and a pre-shared key is accepted with its meaning; nothing else is accepted, except that a last option without its value is ignored. False of the code: a pre-shared key is entered under the name of the endpoint option, so a line with both is always refused (proved). Name resolution is a parameter.
* **C55 rp command line parsing.** Exact characterisation of accepted lines and their meaning: the last of repeated options wins. False of the code for the rule of one command per line: `help` silently replaces a command given before it (proved); proved for every line whose result is not help. Address parsing is a parameter.
* **C56 Key generation never destroys keys and survives crashes.** False of the code in several ways, each proved: a killed run blocks all later runs without --force, equal paths for both keys lose the secret key, a forced run killed half way leaves a mixed pair, the deprecated keygen overwrites, `rp genkey` refuses every directory that exists and a failed run leaves public material without a secret. Proved: no unforced run changes an existing file, a run that reports success has written a matching pair, and a complete run succeeds.
* **C58 Secret files are not readable by others.** Proved for files that did not exist. False of the code for existing files, whose mode is kept (proved).
* **C59 Cleanup jobs are awaited.** Proved for every schedule of callee, jobs, agent and watchers: the scope reports success only after the callee and every submitted job have ended without error, and it can always return once they have. False of the code: once a job fails the scope returns while other jobs still run; a job submitted after that is refused although it has already been started; jobs cannot submit jobs; has_active_janitor answers the opposite (all proved). Not modelled: cancelling the scope's future, shutting down the runtime.
* **C63 Base64 key files are only accepted when they hold a whole key.** Proved: nothing longer than the value and only canonical base64 is accepted. The rest is false of the code: shorter encodings are accepted and the remaining bytes are whatever the buffer held (witness: a key file truncated by a crash).
* **C67 Every address is tried from every local socket during discovery.** False of the code unless the numbers of addresses and sockets are coprime: address and socket advance together (witness proved; combinations_used says exactly which ones are used).
* **C69 The event loop never panics.** Proved for every history in which host names resolve and while the brokers in use are registered; KEM calls do not fail internally and the transmit buffer is large enough. False otherwise: unregistering a broker in use makes the next key output panic (proved).
* **C70 No key event is lost when I/O fails.** False of the code: an exchanged key is lost when the answer to the last message cannot be sent, and a failed erase of an expired key is not repeated (both proved). Proved: nothing is lost when the I/O of the round succeeds; and whatever was lost before, from the peer's next key event on with working I/O what is put out is what the server holds.
* **C71 The server does not sleep while a datagram waits.** False of the code with mio's edge-triggered readiness: after the first of two datagrams was read through its readiness event, the server blocks with the second one waiting (witness proved). Proved: a datagram is overlooked by at most one blocking poll.
* **C73 No listen socket is starved.** False of the code: while the first socket never runs empty, the other sockets are never read (proved for any number of calls). Proved: once arrivals stop, every call delivers a waiting datagram until none is left.
* **C76 A broker client cannot block the others.** False of the code: the broker process does not answer a malformed request, and the handler then waits for ever (proved). Proved for well-formed requests; the handler always comes to rest.
* **C79 A validated configuration starts, with exactly the configured peers.** Proved: exactly which configurations start, and what then runs. False of the code: validation looks neither at the pre-shared key files, nor at the form of the WireGuard peer, nor for duplicate peers, so validated configurations may fail to start; and without a key pair duplicates are accepted at the start, and then the first supplied key pair destroys the server (all proved).
* **C83 Keys handed to `wg` go to the right peer and never appear on a command line.** Proved: the command, its input, and that its arguments do not depend on the key. False of the code: success only means that wg was started; whether it gets and accepts the key makes no difference to the result (proved).
* **C84 Broker configurations survive serialisation.** Proved: both round trips, for all parameters and peer ids, and exactly what is accepted as a peer id. False of the code: truncated peer ids are accepted and filled up with zeros (proved). postcard's format is modelled, not its code.
* **C85 rp touches no network device but its own, and removes that.** Proved for every interleaving with other processes that leave this device alone. Removal is proved once the device was brought up, if the kernel grants it and no panic shuts the runtime down. False of the code otherwise: if bringing the device up fails it stays behind, and all later starts are refused (proved).
* **C86 Length-prefix buffers check every length and position.** Proved for every history of public calls of the encoder whose offset sums fit into 64 bits, and for every history of reads and clears of the decoder. Missing, because false of the code: set_message_offset near 2^64 overflows (panic, or accepted as the start of the frame: offset_overflow), and the decoder's advance does not check the step that completes the header against the length in it (advance_past_message).
* **C87 rp exchange sets up what its options say.** Proved: exactly when rp exchange gets as far as running the server, what it has then done to the system, which peers run and how WireGuard is told of them; on failure it has done a prefix of the same plan. Missing, because false of the code: failures of the ip command are not noticed; port 65535 overflows (panic, or port 0); the scope of a link-local IPv6 endpoint does not reach WireGuard. SocketAddr's Display and name resolution are parameters.
* **C90 Each API request has exactly its documented answer and effect.** Proved: the exact answer and effect of every supply-keypair and add-listen-socket request, and of add-psk-broker when a broker is registered and registration works. False of the code: without any registered broker add-psk-broker panics (overflow checks) or is refused, and when the new broker cannot be registered the old one is lost although an error is reported (both proved).
* **C91 API clients cannot bring down the daemon by connecting and disconnecting.** Proved as long as no connection was closed. False of the code afterwards: a client that connects after the only connection was closed makes the daemon panic with its first event (proved, also as a full history from the start).
* **C95 AEAD calls and their buffers.** False of the code as stated: a ciphertext buffer that is too long (or a plaintext buffer that is too short) panics in copy_from_slice instead of returning InvalidLengths (long_buffer_panics). Everything else is proved for every buffer length. fn_lawful, xSeal_link and xOpen_link discharge the AEAD part of Crypto.Lawful, for messages within the crate's length limit, and tie the calls to the protocol model; the crate's detached in-place AEAD is the parameter.
* **C104 A connection of the API server is given back when its client hangs up.** False of the code. Proved: the exact condition under which a slot is given back (refused input, all output sent); counterexample for every number of clients and polls.
* **C108 API sockets given by descriptor number.** Proved for distinct numbers that are open at the start. False as stated: what is given for a listener is not checked (a pipe is accepted), a number that was not given is taken if the server has meanwhile opened it itself, and -1 panics.
* **C109 The broker client flushes its queue in blocking mode.** The rest is written in order before the call returns without an error. False: O_NONBLOCK is set (not cleared) with F_SETFD, which concerns other flags, so the socket stays non-blocking and the loop calls write over and over; blocking_writes_bounded says what blocking mode would give.
* **C110 Identity hiding against an observer of the network.** False of the messages as sent: the seal in the envelope of every message is a hash under the receiver's public key, so that whoever knows that key sees whether it is the receiver; InitHello shows the responder and RespHello the initiator (hello_shows_responder, answer_shows_receiver). True of the payloads (observer_blind_partial): static equivalence in the symbolic model, for observers. insider_tells: the hypothesis that the responder's static key is hidden is needed. Missing: active attackers; the symbolic model assumes that ciphertexts (in particular of the static KEM) hide the key they were made with.
* **C113 The exit status of `rosenpass` tells whether the command succeeded.** Proved: the status is 0 or 1, status 0 implies success for every command but validate; the verdicts printed by validate are exact; only the arguments of `exchange` can cause a panic. False of the code for validate: it exits with 0 even if every file is missing or broken (validate_exits_zero).
* **C115 `~` in the paths of a configuration file means the home directory.** Proved for the key pair and for public key, pre-shared key and output file of every peer. False for the API socket paths, which are taken literally (api_path_literal).
* **C116 A saved configuration starts the same daemon.** Proved if TOML text round-trips and no path begins with `~/`. False otherwise: a path `~/…` is literal among the arguments and expanded in the file (saved_tilde_differs).
* **C117 No command replaces an existing file unless told to.** Proved for all commands except the deprecated keygen and exchange --config-file, which replace files silently (counterexamples proved). The key output files of a running daemon are outside this claim.
* **C118 Log level options set the level the help text names.** False of the code: --verbose sets info and --quiet sets warn (log_level_flags). --log-level and the default are right.
* **C119 `rp`: the exit status tells success and no existing file is changed.** The exit status is proved in full. False of the code: `rp pubkey DIR ""` replaces wgpk and pqpk in the working directory (rp_empty_dir_overwrites); a missing or unparsable exchange-config file panics, and so does port 65535 in a debug build (rp_panics_partial: nothing else does).
* **C121 Message buffers keep nothing of messages that are done with.** Proved for the API connection (while no poll failed), for clear of the decoder and zeroize of the encoder. False of the code for clear of the encoder, which keeps the bytes (cleared_encoder_keeps_bytes), and for the broker client, whose write buffer keeps the key after it is on the wire (broker_client_keeps_key).
* **C123 Debug text identifies public values.** False of the code: bytes are printed without leading zeros (debug_text_of_public_ambiguous). True of values of at most 64 bytes in which no byte is below 16.
* **C127 Crossed handshakes end with the same key.** The full claim is false of the code; crossed_keys_differ is the counterexample (both protocol versions), handshakes_cross and crossing_for_ever show that it is systematic. The true part is crossing_heals_partial and overtaking_agrees_partial.
* **C128 The broker processes end with the daemon.** The full claim is false of the code (handler_never_sees_end); flag_suffices shows that only the flag is missing. Of descriptors the model has number, open file, close-on-exec flag and whether Rust code owns it; dup2, fork, execve and socketpair are modelled after their manual pages, command-fds after its source.
* **C129 The end of the privileged broker is noticed.** False of the code for a listening handler (listening_handler_stays). The semantics of tokio used: a panic ends the task, dropping its ends of the channels; a panic or an error in main ends the process. Messages are atomic.
* **C133 The cookie mechanism is the one the white paper specifies.** Missing because false of the code, shown by paper_cookie_reply_refused and first_cookie_not_zero: the code pads its CookieReply to the size of an InitHello envelope and refuses one of the 64 bytes of the paper's figure; the cookie field of a first InitHello is not zero but the MAC under a random value (first_cookie_random). Also, a stored cookie value does not expire in the code when its message is sealed; handshakes end after 120 s (C18).
* **C134 What a daemon has put out for a peer is the key its protocol server holds for it.** False of the code: an InitConf whose seal was broken on the way installs the session in the server, the message is refused, so no key is put out, and the genuine InitConf is refused afterwards as a replay (tampered_message_hides_key; cf. C07). Proved part: any number of rounds in which the I/O works (cf. C70), destinations of different peers are different, and no RespHello or InitConf that is authentic but has a broken seal or colliding session id is delivered.
* **C138 A configuration file is taken as a whole or rejected.** False of the code: a WireGuard section of a peer that is not complete (a device without a peer, or a value of the wrong kind) and a key pair that is not complete count for nothing, silently (half_wireguard_ignored, half_keypair_ignored; the second is a TODO in config.rs). Proved part: everything else, for all documents. Elements after the expected ones of a section given as an array are not looked at. TOML text is not modelled: a file is a TOML value.
* **C140 The WireGuard device has the key that the protocol server holds.** False of the code for the reason of C134: after a refused authentic message the responder's server holds a key that the daemon never puts out, so the device keeps the old one. Proved part: all runs without such a message, where I/O works. The daemon puts random keys out when it erases a key; it is the freshly drawn one of that round.
* **C141 A running daemon leaves a key alone until it is due and then asks for renewal in time.** False of the code: a daemon without a configured address for the peer is asked to start a handshake in its first round, does nothing, and since the request is remembered as made it never asks again, although it learns the address in the exchange (responder_never_renews: the key then expires at 180 s, unless the initiator renews it). Proved part: every daemon of whose protocol server no request for that peer was left undone. With C97 and C112 the handshake it starts leads to the same new key on both sides.

## 9. Axioms each claimed theorem depends on

`pe` = propext, `Cc` = Classical.choice, `Qs` = Quot.sound. No other axiom occurs.

* **pe**
  * Thm.AnonymityEx: `Sym.Follows.valid`, `Sym.insider_tells`
  * Thm.Broker: `Broker.parseResponse_exact`
  * Thm.Build: `Site.edits_take_effect`, `with_keypair_first`
  * Thm.ConfigToml: `ConfigToml.half_keypair_ignored`, `ConfigToml.half_wireguard_ignored`
  * Thm.Fds: `Fds.Proc.claim_negative`
  * Thm.FdsApi: `Fds.minus_one_panics`, `Fds.own_listener_taken_as_connection`
  * Thm.FileIO: `FileIO.interrupted_classification`, `FileIO.nonblocking_classification`, `FileIO.short_b64_accepted`, `FileIO.substitute_exact`
  * Thm.Janitor: `Janitor.failed_job_ends_scope`
  * Thm.KeyGen: `KeyGen.gen_config_keeps_existing`
  * Thm.Msgs: `msg_type_codes`
  * Thm.NativeUnix: `NativeUnix.truncated_peer_id_accepted`
  * Thm.Transcript: `InitiatorSees.unique`, `ResponderSees.unique`
* **none**
  * Thm.ApiMsgs: `Api.tags_distinct`
  * Thm.CliRun: `Cli.log_level_flags`, `Cli.log_level_partial`
  * Thm.FdPass: `FdPass.claim_failure_loses_bytes`
  * Thm.Janitor: `Janitor.jobs_cannot_spawn_jobs`
  * Thm.RpExchange: `RpExchange.scope_dropped`
  * Thm.SecretMem: `SecretMem.policy_stays`
  * Thm.To: `ToCrate.condense_exact`, `ToCrate.styles_agree`
* **pe Qs**
  * Thm.Aead: `Aead.buffers_partial`, `Aead.decryptN_cases`, `Aead.decrypt_cases`, `Aead.encryptN_cases`, `Aead.encrypt_cases`, `Aead.encrypt_refused`, `Aead.long_buffer_panics`, `Aead.xOpen_link`, `Aead.xSeal_link`
  * Thm.AnonymityEx: `Sym.knows_iff_computes`
  * Thm.ApiExtra: `Api.Mgr.events_before_first_close_partial`
  * Thm.ApiLeak: `Api.Mgr.slot_freed_iff_partial`
  * Thm.ApiManager: `Api.Mgr.connections_do_not_mix`, `Api.Mgr.event_never_reaches_connection`, `Api.Mgr.event_panics_of_missing_listener`
  * Thm.ApiMsgs: `Api.setup_spec`
  * Thm.AppEx: `App.undelivered_answer_loses_key`
  * Thm.AppHist: `App.unresolved_host_breaks_add_peer`
  * Thm.AppLoop: `App.socket_token_not_a_brokers`, `App.undeliverable_answer_is_failure`
  * Thm.AppPeers: `App.due_message_sent`
  * Thm.Authentic: `forged_cookie_overwrites`, `forged_emptyData_blocks_genuine`
  * Thm.Biscuits: `biscuit_keys_expire`
  * Thm.Blank: `LengthPrefix.cleared_encoder_keeps_bytes`, `LengthPrefix.zeroized_encoder_blank`
  * Thm.BrokerFlush: `Broker.flush_stays_nonblocking`
  * Thm.Build: `Site.failed_build_is_final`, `Site.site_lifecycle`, `Site.taken_stays_void`
  * Thm.ConfigEx: `Config.validate_exact`
  * Thm.ConfigTomlUse: `ConfigToml.rp_read_whole_partial`
  * Thm.ConstantTime: `ConstantTime.increment_is_succ`
  * Thm.Crossed: `crossed_keys_differ`
  * Thm.CtCode: `CtCode.blind_alike`, `CtCode.compare_code`, `CtCode.compare_constant_time`, `CtCode.early_exit_not_constant_time`, `CtCode.increment_code`, `CtCode.increment_constant_time`, `CtCode.memcmp_constant_time`, `CtCode.xor_code`, `CtCode.xor_constant_time`
  * Thm.DaemonRenewal: `App.responder_never_renews`
  * Thm.Domains: `HashDomain.dom_value`, `HashDomain.domains_distinct`, `HashDomain.domains_fresh`
  * Thm.Effects: `rejected_not_without_effect`, `rejected_other_effects`
  * Thm.Endpoint: `Discovery.all_addresses_tried_partial`, `Discovery.unreachable_address_blocks_discovery`, `Endpoint.restart_discovery`, `host_id_injective`, `host_id_injective_v4`
  * Thm.FdPass: `FdPass.descriptors_in_order_and_bounded`, `FdPass.write_sends_queue_front`
  * Thm.FdsApi: `Fds.pipe_accepted_as_listener`
  * Thm.FileIO: `FileIO.b64_round_trip`, `FileIO.b64_store_too_small`, `FileIO.cat_spec`, `FileIO.existing_secret_file_keeps_mode`, `FileIO.new_file_permissions`, `FileIO.secret_file_private_partial`, `FileIO.slice_copies`, `FileIO.slice_copies_length`
  * Thm.HashDomain: `chaining_key_uses_separated`, `cookie_value_bound_to_host`, `cookie_value_is_truncation`, `hash_domain_injective`, `hash_domains_separated`, `osk_domain_separation`, `osk_for_separated`, `osk_wireguard_alias`, `versions_separated`
  * Thm.Index: `session_id_not_taken_over`
  * Thm.KeyGen: `KeyGen.complete_files_match`, `KeyGen.forced_rerun_completes`, `KeyGen.forced_run_leaves_mixed_pair`, `KeyGen.gen_keys_keeps_existing`, `KeyGen.gen_keys_succeeds`, `KeyGen.gen_keys_success_partial`, `KeyGen.killed_run_blocks_reruns`, `KeyGen.same_path_loses_secret`
  * Thm.LengthPrefixApi: `LengthPrefix.advance_past_message`, `LengthPrefix.encoder_views`, `LengthPrefix.offset_overflow`
  * Thm.Msgs: `envelope_layout`, `payload_layout`
  * Thm.NativeUnix: `NativeUnix.peer_id_accepts_partial`, `NativeUnix.peer_id_round_trip`
  * Thm.PaperCookie: `first_cookie_not_zero`, `paper_cookie_reply_refused`
  * Thm.Primitives: `ChaCha.dec_some`, `ChaCha.detached_fnDec`, `ChaCha.detached_fnEnc`, `ChaCha.detached_lawful`, `ChaCha.xDetached_fnDec`, `ChaCha.xDetached_fnEnc`, `ChaCha.xDetached_lawful`
  * Thm.Published: `App.tampered_message_hides_key`
  * Thm.Recv: `Daemon.load_status_selects_path`, `Recv.flooded_socket_starves_others`, `Recv.none_only_if_empty`
  * Thm.RefMaker: `RefMaker.emancipate_same`, `RefMaker.views_exact`, `RefMaker.views_read`, `RefMaker.zeroized_failure`, `RefMaker.zeroized_view`
  * Thm.Renewal: `rest_key`
  * Thm.RpExchange: `RpExchange.port_65535_wraps`, `RpExchange.wg_ports_agree`
  * Thm.SecretAlloc: `SecretAlloc.allocate_refuses`, `SecretAlloc.allocate_succeeds_for_types`
  * Thm.Secrets: `old_secret_issues_cookies`
  * Thm.Serialization: `Serialization.serde_round_trip`, `Serialization.serialize_injective`
  * Thm.Startup: `Startup.listens_as_configured`
  * Thm.SymbolicAuth: `Sym.cross_keys_fresh`, `Sym.initiator_confirmation`, `Sym.initiator_keys_fresh`, `Sym.initiator_security`, `Sym.responder_keys_fresh`, `Sym.responder_security`
  * Thm.SymbolicEx: `Sym.honest_exchange`, `Sym.initiator_key_known_iff`
  * Thm.SymbolicLink: `Sym.ack_link`, `Sym.icr_link`, `Sym.ihr_link`, `Sym.initiation_link`, `Sym.osk_link`, `Sym.rhi_link`, `Sym.rhr_link`
  * Thm.To: `ToCrate.collect_copies`, `ToCrate.collect_vec_panics`
  * Thm.Total: `malformed_rejected`
  * Thm.Transcript: `output_key_binds_transcript`
* **pe Cc Qs**
  * Thm.Aead: `Aead.fn_lawful`, `Aead.round_trip`, `Aead.round_tripN`
  * Thm.Anonymity: `Sym.observer_blind_partial`
  * Thm.ApiExtra: `Api.Mgr.connection_after_close_panics`, `Api.Mgr.oversized_request_then_reconnect_panics`, `Api.broker_status_partial`, `Api.closed_after_last_answer`, `Api.failed_replacement_loses_broker`, `Api.first_broker_refused`, `Api.listen_status`, `Api.supply_status`
  * Thm.ApiHist: `Api.request_uses_own_descriptors`, `Api.requests_answered_once_in_order_partial`
  * Thm.ApiLeak: `Api.Mgr.connections_grow`, `Api.Mgr.hung_up_connections_kept`
  * Thm.ApiLive: `Api.all_requests_answered`, `Api.harmless_requests_answered`, `Api.malformed_request_fails_forever`, `Api.oversized_request_closes`, `Api.wellformed_answered`
  * Thm.ApiManager: `Api.Mgr.every_connection_polled_partial`, `Api.Mgr.lone_connection_event_panics`, `Api.Mgr.poisoned_pass_fails`
  * Thm.ApiMsgs: `Api.encode_parse`, `Api.misaligned_refused`, `Api.parse_exact`, `Api.parse_prefix_exact`, `Api.parse_suffix_partial`, `Api.suffix_parse_wrong_type`, `Api.typeFromPrefix_spec`, `Api.typeFromSuffix_spec`
  * Thm.App: `App.key_output_complete`, `App.key_output_sound`
  * Thm.AppEx: `App.failed_erase_not_repeated`, `App.unregistered_broker_panics`
  * Thm.AppHist: `App.event_loop_no_panic_partial`, `App.peer_tables_aligned_partial`
  * Thm.AppLoop: `App.broker_handle_collision`, `App.broker_handles_unique_partial`, `App.failed_registration_panics_later`, `App.gives_up_after_eleven_failures_partial`, `App.keypair_supplied_once`, `App.scattered_failures_stop_daemon`
  * Thm.AppPeers: `App.addresses_known`, `App.datagram_recipient`, `App.loop_ends_on_signal`, `App.peer_address_changes`, `App.unprompted_datagrams`
  * Thm.Authentic: `cookieReply_effect_partial`, `forged_emptyData_harmless_partial`
  * Thm.Biscuits: `biscuit_key_is_young`, `biscuit_stays_valid`
  * Thm.Blank: `Api.connection_buffers_hold_current_only_partial`, `Broker.broker_client_keeps_key`, `LengthPrefix.cleared_decoder_blank`
  * Thm.Broker: `Broker.long_name_refused`, `Broker.malformed_requests_refused`, `Broker.missing_interface_is_internal_error`, `Broker.missing_interface_never_reported`, `Broker.netlink_result_partial`, `Broker.oversized_ends_process`, `Broker.privileged_in_order`, `Broker.removed_peer_reported_as_success`, `Broker.request_round_trip`, `Broker.result_reported`, `Broker.serve_incomplete`, `Broker.utf8_iff`, `Broker.wrong_length_refused`, `Broker.wrong_type_refused`
  * Thm.BrokerClient: `Broker.invalid_answer_is_error`, `Broker.keys_set_in_order`, `Broker.only_first_answer_seen`, `Broker.result_of_first_key_only`, `Broker.set_psk_never_panics`
  * Thm.BrokerFlush: `Broker.blocking_writes_bounded`, `Broker.flush_blocking_partial`, `Broker.flush_spins`
  * Thm.BrokerHandler: `Broker.clients_learn_of_end`, `Broker.handler_rests`, `Broker.listening_handler_stays`, `Broker.nobody_waits_after_end`, `Broker.nothing_done_after_end`, `Broker.only_due_answers_after_end`, `Broker.stream_handler_ends_partial`
  * Thm.BrokerSocket: `Broker.all_clients_answered_partial`, `Broker.answers_go_to_their_client`, `Broker.at_most_100_waiting`, `Broker.bad_message_blocks_everyone`, `Broker.handler_comes_to_rest`, `Broker.silent_for_ever`
  * Thm.BrokerSpawn: `BrokerSpawn.daemon_notices_partial`, `BrokerSpawn.flag_suffices`, `BrokerSpawn.handler_connected`, `BrokerSpawn.handler_never_sees_end`, `BrokerSpawn.privileged_inherits`
  * Thm.Build: `build_exact`
  * Thm.Cli: `Cli.api_path_literal`, `Cli.load_means_partial`, `Cli.tilde_means`, `Cli.tilde_no_home`
  * Thm.CliRun: `Cli.exchange_exact`, `Cli.exchange_replaces`, `Cli.exit_status_partial`, `Cli.files_kept_partial`, `Cli.keygenArgs_named`, `Cli.panics_only_on_arguments`, `Cli.saved_restarts_partial`, `Cli.saved_tilde_differs`, `Cli.serves_as_told`, `Cli.serves_if_startable`, `Cli.validate_exits_zero`
  * Thm.Config: `Config.parse_args_no_panic`
  * Thm.ConfigEx: `Config.accepted_only`, `Config.dangling_option_accepted`, `Config.psk_and_endpoint_refused`
  * Thm.ConfigParse: `Config.documented_lines_accepted_partial`
  * Thm.ConfigToml: `ConfigToml.read_back`, `ConfigToml.read_whole_partial`, `ConfigToml.ser_once`, `ConfigToml.unknown_rejected`
  * Thm.ConfigTomlUse: `ConfigToml.file_read_back`, `ConfigToml.saved_restarts_toml_partial`
  * Thm.ConstantTime: `ConstantTime.compare_is_integer_comparison`, `ConstantTime.memcmp_iff_eq`, `ConstantTime.xor_involutive_comm`
  * Thm.CookieBind: `cookie_reply_for_one_message`, `cookie_vouches_once`, `seal_vouches_once`
  * Thm.Counter: `answers_are_sent`, `counter_ahead`, `exchange_after_any_history`
  * Thm.Crossed: `crossing_for_ever`, `crossing_heals_partial`, `handshakes_cross`, `overtaking_agrees_partial`
  * Thm.CtCode: `CtCode.memcmp_code`
  * Thm.DaemonRenewal: `App.daemon_leaves_alone`, `App.daemon_renews_partial`, `App.daemon_sends_renewal_partial`
  * Thm.Daemons: `App.daemons_agree_despite_loss`
  * Thm.Debug: `Dbg.broker_config_text_secret_free`, `Dbg.debug_text_of_public_ambiguous`, `Dbg.debug_text_of_public_ends`, `Dbg.debug_text_of_public_exact_partial`, `Dbg.debug_text_of_public_short`, `Dbg.debug_text_secret_free`
  * Thm.Device: `Device.device_holds_last_key`, `Device.device_others_kept`, `Device.device_peers_kept`, `Device.devices_agree`
  * Thm.DeviceCurrent: `Device.device_key_is_current_partial`, `Device.tampered_message_keeps_old_device_key`
  * Thm.Effects: `changed_peer_was_addressed`, `peer_isolation`, `rejected_no_effect_partial`
  * Thm.EndToEnd: `App.Ready.step`, `App.daemons_agree`
  * Thm.Endpoint: `Discovery.all_combinations_used_partial`, `Discovery.combination_never_used`, `Discovery.combinations_used`
  * Thm.Envelope: `answer_shows_receiver`, `hello_shows_responder`
  * Thm.F64: `F64.ancient_void`, `F64.biscuit_ticks`, `F64.clock_mono`, `F64.cookie_ticks`, `F64.fl_error`, `F64.never_younger`, `F64.plain_accurate`, `F64.session_accurate`, `F64.session_ticks`, `F64.store_accurate`
  * Thm.Fair: `chaining_key_erased`, `poll_fair`
  * Thm.FdPass: `FdPass.batch_all_or_none`
  * Thm.Fds: `Fds.Proc.claim_fd_exact`, `Fds.Proc.claim_fd_inplace_exact`, `Fds.Proc.no_descriptor_leaks`, `Fds.Proc.second_claim_gets_null`
  * Thm.FdsApi: `Fds.api_sockets_exact_partial`, `Fds.api_sockets_set_up`
  * Thm.FileIO: `FileIO.b64_file_round_trip`, `FileIO.b64_load_accepts_partial`, `FileIO.load_exact`, `FileIO.read_slice_exact`
  * Thm.Index: `add_peer_injective`, `index_complete_partial`, `index_in_range`, `index_incomplete`, `peer_pointers_stable`
  * Thm.Interop: `paper_initiator_interoperates`, `paper_responder_interoperates`
  * Thm.Janitor: `Janitor.has_active_janitor_inverted`, `Janitor.jobs_awaited_partial`, `Janitor.scope_returns`
  * Thm.KeyAgreement: `key_agreement`, `key_agreement_interleaved`
  * Thm.KeyGen: `KeyGen.keygen_overwrites`
  * Thm.KeyRecovery: `App.lost_key_superseded_partial`
  * Thm.LengthPrefix: `LengthPrefix.decoder_delivers_frame`, `LengthPrefix.encoder_sends_frame`, `LengthPrefix.frame_stream_in_order`, `LengthPrefix.framing_round_trip`, `LengthPrefix.oversized_frame_rejected`
  * Thm.LengthPrefixApi: `LengthPrefix.constructors_exact`, `LengthPrefix.decoder_calls_safe`, `LengthPrefix.encoder_calls_safe_partial`, `LengthPrefix.positioning_exact`, `LengthPrefix.too_long_message_reported`
  * Thm.Lifecycle: `exchange_session`, `poll_run_exact`, `poll_run_terminates`, `session_lifecycle`
  * Thm.Load: `reply_amplification`, `reply_size`, `under_load_gate`
  * Thm.Messages: `exchange_authenticated`, `handleMsg_ok_sealed`, `unsealed_rejected`, `version_separation`
  * Thm.Msgs: `envelope_wire_bijection`, `payload_wire_bijection`
  * Thm.NativeUnix: `NativeUnix.empty_params_refused`, `NativeUnix.failure_of_wg_not_reported`, `NativeUnix.key_not_on_command_line`, `NativeUnix.key_set_through_wg_partial`, `NativeUnix.ok_iff_started`, `NativeUnix.params_round_trip`, `NativeUnix.trailing_bytes_ignored`
  * Thm.Paper: `accepts_init_conf_as_in_paper`, `accepts_resp_hello_as_in_paper`, `answers_init_hello_as_in_paper`, `initiates_as_in_paper`
  * Thm.PaperCookie: `cookie_used_as_in_paper_partial`, `first_cookie_random`, `under_load_as_in_paper_partial`
  * Thm.PollBounds: `Server.poll_sleep_bounds`
  * Thm.Primitives: `GenIpc.api_type_is_hash`, `GenIpc.api_types_are_generated`, `GenIpc.gen_eq`, `GenIpc.shake_types_unused`, `realCrypto_lawful`
  * Thm.Published: `App.published_key_is_current_partial`
  * Thm.Recovery: `completes_despite_loss`
  * Thm.Recv: `Recv.backlog_is_worked_off_partial`, `Recv.blocks_while_datagram_waits`, `Recv.datagram_delayed_at_most_once_partial`, `Recv.datagrams_delivered_in_order`, `Recv.load_detection_exact`
  * Thm.RefMaker: `RefMaker.splits_exact`
  * Thm.Rekey: `ignored_request_not_repeated`, `rekey_requested_again_partial`
  * Thm.Renewal: `link_renews`, `renewal_for_ever`, `rest_request`, `rest_run`, `rest_silent`
  * Thm.Replay: `accepted_biscuits_increase`, `issued_biscuits_increase`, `recorded_conf_not_accepted_again`, `retransmitted_conf_idempotent`
  * Thm.RespOnce: `respHello_starts_one_session`
  * Thm.Retransmit: `emptyData_ends_handshake`, `initConf_ends_handshake`, `no_handshake_no_retransmission`, `retransmission_schedule`, `retransmissions_spaced`, `retransmitted_content`
  * Thm.RpCli: `Rp.help_replaces_command`, `Rp.one_command_partial`, `Rp.parse_exact`
  * Thm.RpDevice: `RpDevice.device_configured`, `RpDevice.device_removed_partial`, `RpDevice.existing_device_refused`, `RpDevice.failed_up_leaves_device`, `RpDevice.only_own_device_touched`
  * Thm.RpExchange: `RpExchange.exchange_exact_partial`, `RpExchange.ip_failures_ignored`, `RpExchange.no_keys_nothing_done`, `RpExchange.port_65535_panics`, `RpExchange.wg_command`
  * Thm.RpKey: `KeyGen.genkey_then_pubkey`, `KeyGen.pubkey_cannot_be_repeated`, `KeyGen.pubkey_exports`, `KeyGen.pubkey_frame`, `KeyGen.rp_existing_directory_refused`, `KeyGen.rp_genkey_keeps_existing`, `KeyGen.rp_genkey_succeeds`, `KeyGen.rp_genkey_success_partial`, `KeyGen.rp_public_without_secret`, `KeyGen.rp_reruns_refused`
  * Thm.RpMain: `RpMain.rp_dirs_kept`, `RpMain.rp_exit_status`, `RpMain.rp_files_kept_partial`, `RpMain.rp_hosts_linked`, `RpMain.rp_keys_prepared`, `RpMain.rp_not_repeatable`, `RpMain.rp_panics_partial`
  * Thm.RpMainEx: `RpMain.rp_empty_dir_overwrites`
  * Thm.RpMainLater: `RpMain.rp_hosts_stay_linked`
  * Thm.SecretAlloc: `SecretAlloc.allocate_exact`, `SecretAlloc.boxes_sound`
  * Thm.SecretMem: `SecretMem.memory_is_sound`, `SecretMem.new_secret_is_zero`, `SecretMem.no_secret_bytes_left`, `SecretMem.secrets_behave_as_values`, `SecretMem.threads_leave_nothing`
  * Thm.Secrets: `cookie_liveness`, `cookie_secret_rotation_partial`, `initiate_pending`
  * Thm.Serialization: `Serialization.serde_accepts`, `Serialization.serde_length`
  * Thm.Startup: `Startup.startup_exact`, `Startup.supply_after_startup`, `Startup.validated_not_started`, `Startup.validated_starts_partial`
  * Thm.Timers: `poll_exact`
  * Thm.Total: `network_input_never_panics`, `timers_never_panic`
  * Thm.Transcript: `initiator_transcript`, `responder_transcript`, `transcript_binding`
  * Thm.Typenum: `Typenum.conversion_exact`, `Typenum.conversion_modular`, `Typenum.too_large_wraps`
  * Thm.UnderLoad: `completes_under_load`
