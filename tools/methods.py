METHOD={
"C01":("Handshake, Server, HashDomain, Msgs","symbolic execution of the four handlers over arbitrary well-formed states with the functional laws of AEAD and KEM; `key_agreement_interleaved` allows arbitrary other operations between the messages, using invariants over operation histories"),
"C02":("Handshake, Poll","invariant over all operation histories: the accepted biscuit number of a peer strictly increases; a recorded InitConf is refused"),
"C03":("Handshake, Poll","analysis of the cached-response path; equality of the bytes sent and of the session"),
"C04":("Handshake, ConstantTime, Poll","`increment` is +1 on the integer, induction over histories"),
"C05":("Handshake","inversion of every path of `handle_msg` that reports an exchange"),
"C06":("Handshake, Poll","frame lemma per handler: only the addressed peer changes"),
"C07":("Handshake","inversion; witnesses for the paths where an error leaves effects"),
"C08":("Handshake, Msgs","inversion: every accepting path checked the seal"),
"C09":("Handshake, Poll, Msgs","panic is an explicit outcome; shown unreachable under the state invariant (`Thm/Invariant`), given that liboqs reports no error (`KemTotal`)"),
"C10":("Msgs, Handshake","length calculation"),
"C11":("Handshake","inversion of `handle_msg_under_load`"),
"C12":("Handshake, Poll","composition of the two machines: reply, retransmission, acceptance"),
"C13":("HashDomain","unconditional reduction: equal cookie values give equal inputs or an explicit hash collision"),
"C14":("Server, Poll","invariant of the index over histories"),
"C15":("Server, Poll","invariant up to collisions of session ids; the collision is the counterexample"),
"C16":("Server","induction on registrations"),
"C17":("Poll","linear arithmetic over ticks"),
"C18":("Poll","induction over `poll` and over runs of polls; the wait returned is exact"),
"C19":("Poll","analysis of the `rekey` state; witness run"),
"C20":("Poll, Handshake","induction over retransmissions; delays are computed in integer ticks, rounded down"),
"C21":("Handshake","inversion; witness"),
"C22":("Handshake","inversion; witness (the buffer handling of the AEAD is C95)"),
"C23":("HashDomain","reduction to collisions"),
"C24":("Handshake, HashDomain","what each side hashes is written down independently (`InitiatorSees`, `ResponderSees`); equal keys give equal transcripts or a collision"),
"C25":("HashDomain","prefix-freeness of the domain tree, reduction to collisions"),
"C26":("Handshake","inversion"),
"C27":("Server, Poll, Handshake","invariant on the two keys and their ages over histories"),
"C28":("Server, Handshake","as C27; witness"),
"C29":("Msgs","round trip in both directions"),
"C30":("ConstantTime","induction on bytes"),
"C31":("ConstantTime","induction on bytes"),
"C32":("ConstantTime","induction on bytes"),
"C33":("LengthPrefix","refinement: for every schedule of partial reads and writes the byte stream is the frame"),
"C34":("LengthPrefix","inversion"),
"C35":("LengthPrefix","induction on the list of frames"),
"C36":("FileIO","induction over the read schedule"),
"C37":("FileIO","induction over 3-byte groups; store then load"),
"C38":("ApiMsgs","inversion of the parsers; witness"),
"C39":("Api, ApiMsgs, LengthPrefix, App","simulation of a connection by a queue of requests and answers, over all I/O schedules; witnesses"),
"C40":("ApiManager","invariant over event histories; witnesses"),
"C41":("Api, App, Build","invariant over histories"),
"C42":("Build","case analysis over all call sequences"),
"C43":("Broker","round trip"),
"C44":("Broker","case analysis over broker and kernel results; witnesses"),
"C45":("Broker","inversion"),
"C46":("Endpoint","counting argument over scout rounds; witness"),
"C47":("App","invariant of the failure counter over loop iterations; witness"),
"C48":("App","invariant over histories; witness"),
"C49":("App","invariant over histories; witnesses"),
"C50":("Recv, App","exact characterisation by the last complete measuring period"),
"C51":("App","every output of a key is justified (soundness), and every exchange is output (completeness)"),
"C52":("Endpoint","injectivity by cases over address kinds"),
"C53":("Config","inversion of the argument loop; grammar of accepted lines; witnesses"),
"C54":("Config","both directions against an independent specification"),
"C55":("RpCli","both directions against a grammar; witness"),
"C56":("KeyGen, FileIO","state machine with a crash possible at every step; witnesses"),
"C57":("SecretMem","invariant of the pool over all operation histories"),
"C58":("FileIO","mode calculation; witness"),
"C59":("Janitor","invariant and termination measure over all task interleavings; witnesses"),
"C60":("FdPass","queue invariant over all schedules of writes and reads"),
"C61":("FileIO","induction over call outcomes"),
"C62":("FileIO","list calculation"),
"C63":("FileIO","inversion; witness"),
"C64":("Handshake, Poll","invariant over histories"),
"C65":("Poll","invariant on the cursor; every peer is served within one round"),
"C66":("Build","both directions"),
"C67":("Endpoint","arithmetic modulo the two table sizes; witness"),
"C68":("Endpoint","case analysis"),
"C69":("App","panic outcome unreachable under the invariant; witness"),
"C70":("App","as C51; witnesses"),
"C71":("Recv","invariant relating unread datagrams and edge-triggered readiness; witness"),
"C72":("Recv","history of deliveries is the arrival order per socket"),
"C73":("Recv","measure on the backlog; witness"),
"C74":("Broker, LengthPrefix","composition of client, byte stream and privileged process for every I/O schedule"),
"C75":("BrokerSocket","invariant over all interleavings"),
"C76":("BrokerSocket","termination measure and invariant; witness"),
"C77":("Broker","induction on the stream"),
"C78":("KeyGen","state machine; frame"),
"C79":("Startup, Config, App","both directions against an independent specification; witness"),
"C80":("Startup","case analysis of the listen addresses"),
"C81":("SecretMem","simulation of the memory model by independent values"),
"C82":("SecretMem","invariant: no fault state is reachable"),
"C83":("NativeUnix","execution of the command with a model of its effects; witness"),
"C84":("NativeUnix","round trip of varint/postcard and base64; witnesses"),
"C85":("RpDevice","invariant over all interleavings with other processes and failures; witness"),
"C86":("LengthPrefixApi","call-by-call specification with 64-bit arithmetic; witnesses"),
"C87":("RpExchange","both directions against the options; witnesses"),
"C88":("App, Endpoint","invariant over loop histories: who learns which address from what"),
"C89":("App","inversion of the loop"),
"C90":("Api","case analysis with the literal status codes; witnesses"),
"C91":("ApiManager","invariant until the first close; witnesses"),
"C92":("Symbolic, Handshake","invariant over all traces of a Dolev-Yao network with unbounded servers, peers and sessions and adaptive compromise; tied to the byte-level functions by evaluation lemmas (`Thm/SymbolicLink`)"),
"C93":("Symbolic, Handshake","as C92; exact characterisation of when the attacker knows a key"),
"C94":("Symbolic","invariant over traces; key derivation is injective on terms"),
"C95":("Aead","case analysis over all lengths; link to the abstract AEAD of Crypto; witness"),
"C96":("Serialization, FileIO","round trip and inversion"),
'C97':('App, Handshake, Poll, FileIO','composition of C01 with the rounds of the event loop'),
'C98':('Model/Typenum.lean: the trait implementations as recursive functions into bit vectors','induction over the binary number; no carry out of the added bit; the rotated one is the signed minimum'),
'C99':('Server of Model/Handshake.lean and Model/Poll.lean; histories Along with LeavesHandshake, LeavesSession, LeavesOpen (Thm/Recovery.lean)','key_agreement_resent for the four messages; induction over the history for the pending handshake, the session and the last accepted biscuit number; biscuit_stays_valid for the biscuit key; retransmitted_conf_idempotent for repeated InitConf.'),
'C100':('macOf, cookieOf, cookieValueFor, cookieKey, handleMsgUnderLoad, handleCookieReply of Model/Handshake.lean','injectivity of two nested hashes up to a 16-byte collision; under_load_gate for the accepted cookie; handleMsg_ok_sealed for the seal; cookieReply_effect_partial and cookie_secret_rotation_partial for the reply.'),
'C101':("Model/SecretAlloc.lean: the heap of memsec's live blocks, allocate, deallocate, boxes",'arithmetic of the alignment; invariant (live blocks = boxes held) by induction over the history'),
'C102':('Model/RefMaker.lean: slices as windows of one buffer with an address','case analysis and list arithmetic'),
'C103':('Model/To.lean: a destination function as a partial function on destinations','case analysis'),
'C104':('Model/Api.lean, Model/ApiManager.lean','state at rest is preserved by polls at the end of the stream (from the exact specification of a poll); induction over the rounds'),
'C105':('Model/Server.lean, Model/Handshake.lean, Model/Poll.lean','invariant: no peer waits for a RespHello under the id; preserved by every call but an initiation drawing that id'),
'C106':('Model/Server.lean, Model/Handshake.lean','composition of C12 and C99'),
'C107':('Model/Fds.lean','case analysis over the system calls; invariant over histories'),
'C108':('Model/Fds.lean','one lemma per socket, composed over the three loops; counterexamples by evaluation'),
'C109':('Model/BrokerFlush.lean, Model/Broker.lean, Model/Fds.lean','refinement of the client model by the descriptor table; induction over the outcomes of the writes'),
'C110':('Symbolic payloads of all four messages (Model/Symbolic.lean, computed by the same functions as in C92); tests are pairs of computations over what was observed. The envelope at byte level (Model/Handshake.lean).','A relation between the values of two runs that is functional in both directions and closed under all constructions and destructions; the ciphertext keys contain an encapsulated secret that nobody can compute. The seal: unfolding and reduction to a 16-byte collision.'),
'C111':('Server, Handshake, Poll','induction over the history; every accepted number was opened from a biscuit, every biscuit sent carries a smaller number than the counter has afterwards'),
'C112':('App (rounds of the event loop), Handshake, Poll, Server','composition of `completes_despite_loss` with `due_message_sent`, `gets_answer`, `gets_exchange`; re-instantiation at every stage'),
'C113':('Model/Cli','case analysis of the whole command; induction over the files of validate'),
'C114':('Model/Cli, Model/Startup, Model/Config','composition of startup_exact and validate_exact over all commands'),
'C115':('Model/Cli','induction over paths; the sequence of names is the specification'),
'C116':('Model/Cli','unfolding of both runs'),
'C117':('Model/Cli, Model/KeyGen','case analysis over all commands'),
'C118':('Model/Cli','unfolding'),
'C119':('Model/RpMain, Model/KeyGen, Model/RpCli, Model/RpExchange','case analysis of the whole command over the theorems on its parts'),
'C120':('Model/RpMain, Model/KeyGen, Model/RpExchange, Model/App','composition of genkey, pubkey and exchange; induction over rounds'),
'C121':('Model/LengthPrefix, Model/Api, Model/Broker','invariant of the buffers over all histories of a connection'),
'C122':('Model/Debug','every state has the text of its censored version'),
'C123':('Model/Debug','induction over the bytes'),
'C124':('Model/CtCode','soundness of a syntactic criterion over the observation semantics; loop invariants for the results'),
'C125':('Model/F64','grid argument for the error of one rounding; sums of errors; monotonicity'),
'C126':('Model/Server, Model/Handshake, Model/Poll','Invariant AtRest kept by every call; the round composes poll_run_exact and completes_despite_loss (C99); RenewsOften is a game played n times, won by induction on n.'),
'C127':('Model/Handshake, Model/Poll: two servers, all calls of a crossed round.','Apply the single-handshake theorem (with arbitrary other calls in between) to each of the two handshakes, with the messages of the other as the calls in between; induction on the number of rounds.'),
'C128':('Model/BrokerSpawn.lean: descriptor tables of the processes, get_broker_socket, claim_fd, start of the privileged broker','invariants over all event sequences: which processes may hold which file'),
'C129':('Model/BrokerHandler.lean over Model/BrokerSocket.lean: the handler with the end of the privileged broker, of the worker task and of the process','invariants over all event sequences; a state of rest is reached by a weight that every internal step lowers'),
'C130':('Composition of Model/App.lean (outputs), Model/Broker.lean (client, privileged broker, netlink); no new model. Specification: `pskOf`, `keysFor`, `Carried` and `Feeds` in Thm/Device.lean.','The outputs for a broker become the queued requests of the client (invariant of the client), these become the calls of the inner broker in the same order (framing), and each of these changes one key of the device (induction over the calls).'),
'C131':('`Model/Paper.lean` (specification), `Model/Handshake.lean`, `Model/Server.lean`, `Model/HashDomain.lean`, `Model/Msgs.lean`',"Case analysis of a successful call down to the six handshake functions; each of them is rewritten, mix by mix, into the paper's step with the lemmas that identify the code's precomputed hash domains with the paper's `lhash` label lists; the envelope by the layout lemmas of C29."),
'C132':('`Model/Paper.lean` (specification), `Model/Handshake.lean`, `Model/Server.lean`',"The two sides of the paper are shown to fit together (AEAD and KEM correctness); the code accepts what passes the paper's checks (the equations of C131 read backwards), then the success lemmas of the handlers used for C01."),
'C133':('`Model/Paper.lean` (specification), `Model/Handshake.lean`, `Model/Server.lean`',"The cookie functions of the paper are written down from its text; the code's computations are shown equal to them and the branches of the two handlers followed."),
'C134':('`Model/App.lean`, `Model/Handshake.lean`, `Model/Poll.lean`',"Invariant over rounds: per peer, the server's key equals what the outputs show. Each message and each poll is shown to change the key only in the cases in which the daemon then calls output_key; the outputs of other peers do not touch this peer's file or broker slot."),
'C135':('`Model/Keccak.lean`, `Model/Blake2b.lean`, `Model/ChaCha.lean`','XOR with a key stream at least as long as the text is an involution; the tag is a function of key, nonce, associated data and ciphertext. Known answers evaluated by the kernel.'),
'C136':('`Model/GenIpc.lean`, `Model/Blake2b.lean`, `Model/Keccak.lean`, `Model/ApiMsgs.lean`','Structural evaluation of the generator for arbitrary hash functions, then kernel evaluation of BLAKE2b and SHAKE256 on the paths.'),
'C137':('`Model/HashDomain.lean`, `Model/Keccak.lean`, `Model/Blake2b.lean`',"Kernel evaluation of the hash functions along the tree of labels; comparison of the table's entries."),
'C138':('`Model/ConfigToml.lean`','Lookup lemmas for tables with distinct keys; the flattened structs are shown to take exactly their entries if all values fit; then field by field.'),
'C139':('`Model/ConfigToml.lean`, `Model/Cli.lean`','Tables related by lookup (Same); each field is read back from the related table; flattened parts through the lemma on entries taken.'),
'C140':('Composition of Model/App, Model/BrokerSocket, Model/BrokerHandler, Model/Broker.','The invariant of C134 gives the last key handed to the broker; splitting the outputs at it, C130 gives the device state.'),
'C141':('Composition of Model/App, Model/Poll, Model/Server.',"One round keeps the peer at rest (C126's invariant) and brings its turn closer (C65's measure); induction over the rounds."),
}
