## 5. Map of the model

| Model | Code |
|---|---|
| Base, ConstantTime | constant-time/src |
| Crypto, Aead, HashDomain | ciphers/src, cipher-traits/src, oqs/src (as parameters), rosenpass/src/hash_domains.rs, protocol/osk_domain_separator.rs |
| Msgs | rosenpass/src/msgs.rs |
| Server, Handshake, Poll | rosenpass/src/protocol/{protocol,cookies,index,timing,constants,zerocopy}.rs |
| Build | util/src/build.rs, rosenpass/src/protocol/build_crypto_server.rs |
| Symbolic | the handshake of protocol.rs, over terms |
| LengthPrefix, LengthPrefixApi | util/src/length_prefix_encoding |
| FileIO, Serialization | util/src/{file,b64,io,mem}.rs, to/src/ops.rs, secret-memory/src/{file,secret,public,serialization}.rs |
| To | to/src |
| RefMaker | util/src/zerocopy, util/src/zeroize |
| Typenum | util/src/typenum.rs |
| SecretMem, SecretAlloc | secret-memory/src/{secret,policy,alloc} |
| Endpoint, App, Recv, Startup | rosenpass/src/app_server.rs, rosenpass/src/cli.rs |
| Config | rosenpass/src/config.rs |
| Cli | rosenpass/src/{main,cli,config}.rs, rosenpass/src/api/cli.rs |
| Fds | util/src/fd.rs |
| KeyGen | rosenpass/src/cli.rs, rp/src/key.rs |
| ApiMsgs, Api, ApiManager | rosenpass/src/api |
| FdPass | util/src/mio/{uds_send_fd,uds_recv_fd}.rs, util/src/fd.rs in part |
| Broker, BrokerSocket, BrokerHandler, BrokerFlush, BrokerSpawn, NativeUnix | wireguard-broker/src |
| RpCli, RpDevice, RpExchange | rp/src/{cli,exchange}.rs |
| RpMain | rp/src/{main,main_supported_platforms}.rs |
| Debug | secret-memory/src/debug.rs, `Debug` of secret-memory/src/{secret,public}.rs, of rosenpass/src/protocol/*, of wireguard-broker/src/brokers/native_unix.rs |
| F64 | rosenpass/src/protocol/timing.rs, util/src/time.rs and the life cycles of protocol.rs (1611-1735, 1836-1851) in floating point arithmetic |
| CtCode | constant-time/src/* as imperative code with observations |
| Janitor | util/src/tokio/janitor.rs |
| GenIpc | rosenpass/src/bin/gen-ipc-msg-types.rs |
| ConfigToml | rosenpass/src/config.rs, rosenpass/src/api/config.rs, rp/src/exchange.rs: serde attributes (reading and writing TOML values) |
| Keccak, Blake2b, ChaCha | the standards FIPS 202, RFC 7693, RFC 8439, draft-irtf-cfrg-xchacha, which the crates behind ciphers/src/subtle/rust_crypto implement |
| Paper | papers/whitepaper.md and its figures: a specification, not a model of code |

## 6. Not modelled

Memory safety of `unsafe` blocks (beyond the ownership discipline of secret memory, C81/C82), timing side channels beyond the observations of C124 and
the effect of `black_box`, the internals of the KEMs and of the crates that implement hash functions and ciphers (the standards are: C135), the text of log lines (beyond the debug texts of C122), clap's argument definitions (and the
`--generate-manpage` and `--print-completions` output),
the text of TOML files (their values are: C138, C139) and of the other serde formats, the exponent range of floating point numbers, test and benchmark code, test vectors (`TV` parameters are the no-op
implementation), `util/src/{functional,option,controlflow}.rs` (language sugar without behaviour
of their own: the models use the expanded meaning), Windows and macOS variants.

## 7. Checking the model against a recorded run of the code

The repository holds a recording of a handshake: rosenpass/.test_vectors/crypto_server_test_vector_1.toml, made and replayed by
rosenpass/tests/test_vector_crypto_server.rs, with all random values, all messages and the exchanged key. `Thm/Recorded.lean` replays it in the model:
`Verif.Recorded.recorded_run` says that the protocol server of the model, with SHAKE256, ChaCha20-Poly1305 and XChaCha20-Poly1305 as in their standards, turns the
recorded random values into the recorded InitHello, RespHello, InitConf and EmptyData, byte for byte, and into the recorded key on both sides. Evaluated by the kernel. Not recomputed:
the key encapsulations, and the nine hashes whose input contains a static public key of 524160 bytes (they come from Python's hashlib and the recorded keys). This is a test of the model, one run,
and not listed as a property. Even the bytes of an old message that the code leaves in the cookie field of the EmptyData (C121) are reproduced.

## 8. Checking the theorems against wrong programs

`seeded/LOG.jsonl` holds one line per edit of a model definition: the edit, the claim it breaks, which theorems failed and
which claimed theorems depend on them, and what was tightened when nothing failed. Survivors led to new theorems
(e.g. C86, C88–C90, `with_keypair_first`, `closed_after_last_answer`), or are equivalent programs, and the log says which.
