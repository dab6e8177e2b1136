# Formal model of rosenpass/rosenpass in Lean 4

(Generated by tools/mkdesign.py from tools/design_head.md, tools/methods.py, tools/design_tail.md, properties.jsonl,
MANIFEST.json and the axioms reported by Lean.)

## 1. Trusted base

* Lean 4.33.0's kernel. The theorems depend on no axioms but `propext`, `Classical.choice` and `Quot.sound` (section 9
  lists them per theorem). No axioms of our own, no compiled-code evaluation; `decide +kernel` appears in concrete
  examples and witnesses only (and in one table of 64 base64 characters), and is checked by the kernel.
* That the Lean definitions under `lean/Verif/Model` say what the Rust text says. Each definition cites the file and
  lines it models and states its simplifications. Nothing was executed: the correspondence is by reading.
* The assumptions about the world outside the code, section 3.

The files in `lean/Verif/Model` are the model, those in `lean/Verif/Thm` the specifications and proofs. Where a theorem
needs a vocabulary of its own (what a peer "sees", what a configuration "means", what the environment may do), it is
defined just before the theorem, independently of the functions that are proved correct.

## 2. Modelling conventions

* Bytes are `List UInt8`. Fixed-size arrays are lists; their lengths are tracked by predicates.
* `fn f(&mut self, ..) -> Result<T>` becomes `S -> Except Err T × S`: **the state after an error is kept**, as in Rust,
  so that "an error changes nothing" is a theorem (or a refuted claim), not an artefact of the model.
* `panic!`, `unwrap`, index out of bounds, and arithmetic overflow where it can occur, are explicit outcomes, so panic
  freedom is a theorem. (Release builds wrap on overflow, debug builds panic; where it matters the comment says which.)
* Randomness and time are inputs of every operation, hence universally quantified. One call reads the clock once (Model/F64
  models the two readings of a life cycle).
* Time is an integer number of ticks of 100 µs (all constants are multiples of it); in the code it is an `f64` number of
  seconds: Model/F64 models the rounding, and C125 bounds the difference.
* `HashMap` is a partial function (or an association list with the map laws); iteration order is never relied on.
* I/O is a schedule: the environment chooses, for each `read`, `write`, `accept` …, how much is transferred and which
  error occurs. Concurrency (tokio tasks, threads, other processes) is an arbitrary interleaving of atomic steps; each
  model says what is atomic.
* A crash may happen at every step of the models that speak about crashes (KeyGen, RpDevice).

## 3. Assumptions about the environment

* **Primitives.** SHAKE256, BLAKE2b, the AEADs and the KEMs are parameters (`structure Crypto`). `Crypto.Lawful` lists
  the functional laws theorems may use (output lengths, decryption inverts encryption, decapsulation inverts
  encapsulation); `Toy.crypto` satisfies them, so no theorem is vacuous. `KemTotal` (liboqs reports no error; an error is
  a panic) is a separate hypothesis where used. C95 derives the AEAD laws from those of the crate's detached AEAD.
* **Collisions.** No theorem assumes a hash function to be injective. Statements that depend on collision resistance
  are reductions: the conclusion holds, or two different inputs with equal hash are exhibited among listed queries.
* **Symbolic model** (C92–C94). Perfect cryptography: terms of a free algebra, an attacker who controls the network, may
  compromise long-term keys, pre-shared keys, ephemeral keys, coins and biscuit keys at any time, and takes part as any
  number of peers. This is an idealisation: no claim of computational soundness. Envelopes, MACs, cookies, timeouts and
  the biscuit-number check are left out, which only adds behaviours; the replay check is in C02 at byte level.
  `Thm/SymbolicLink` proves that each symbolic step evaluates to what the byte-level handlers compute.
* **Linux.** mio's readiness is edge triggered as documented (Recv); `SCM_RIGHTS` semantics of `sendmsg`/`recvmsg`
  (FdPass); regular files answer `Ok(0)` only at their end (FileIO); `st_mode` bits and umask (FileIO, KeyGen); link names
  are unique and interface indices are not reused (RpDevice); WireGuard's netlink interface sets the pre-shared key of the
  named peer or reports an error (Broker); `wg` does what its manual says (NativeUnix, RpExchange).
* **Crates.** base64, base64ct and postcard are specified, not modelled. `zerocopy` views: bytes of the right length
  (and alignment, where not packed) are viewed in place. tokio: tasks run in any order; a task-local is not inherited by
  `spawn`; `mpsc` channels are FIFO queues. `zeroize` is taken at its word. `SocketAddr` parsing, printing and name
  resolution are parameters. clap, TOML and serde data formats are not modelled.
* **Startup.** Files and name resolution do not change between `validate` and the start (C79).
