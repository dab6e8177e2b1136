import Verif.Model.HashDomain
/-
Model of rosenpass/src/bin/gen-ipc-msg-types.rs: the developer's tool that prints the constants of
rosenpass/src/api/boilerplate/message_type.rs:10-36. The layout of the printed lines is left out: a line is the path, the name of the constant
and the sixteen bytes in the hexadecimal literal. Names of branches and leaves are ASCII.
-/
namespace Verif.GenIpc

/-- gen-ipc-msg-types.rs:8-13 `calculate_hash_value`, with ciphers/src/hash_domain.rs:80-84 `mix`. -/
def hashValue (C : Crypto) (h : HashChoice) (hd : Bytes) : List (List Char) → Bytes
  | [] => hd
  | head :: tail => hashValue C h (HashDomain.mix C h hd (lbl head)) tail

/-- `heck::ToShoutySnakeCase`, for words of letters with single spaces in between: gen-ipc-msg-types.rs:19. -/
def shouty (s : List Char) : List Char := s.map fun c => if c = ' ' then '_' else c.toUpper

/-- A printed line. -/
structure Line where
  path : List (List Char)
  name : List Char
  bytes : Bytes
  deriving DecidableEq, Repr

/-- gen-ipc-msg-types.rs:16-39 `print_literal`: of the hash value, the first eight groups of two bytes are printed; an empty path is an
error (`none`). -/
def printLiteral (C : Crypto) (h : HashChoice) (path : List (List Char)) : Option Line :=
  path.getLast?.map fun last => ⟨path, shouty last, (hashValue C h zero32 path).take 16⟩

/-- gen-ipc-msg-types.rs:43-47 `Tree`. -/
inductive Tree where
  | branch (name : List Char) (children : List Tree)
  | leaf (name : List Char)

/-- gen-ipc-msg-types.rs:57-71 `gen_code_inner`: the lines printed, `none` if it ends in an error. -/
def Tree.genInner (C : Crypto) (h : HashChoice) (pre : List (List Char)) : Tree → Option (List Line)
  | .branch name children => genAll C h (pre ++ [name]) children
  | .leaf name => (printLiteral C h (pre ++ [name])).map fun l => [l]
where
  /-- gen-ipc-msg-types.rs:63-65: the loop over the children -/
  genAll (C : Crypto) (h : HashChoice) (path : List (List Char)) : List Tree → Option (List Line)
    | [] => some []
    | c :: cs => (c.genInner C h path).bind fun ls => (genAll C h path cs).map fun ls' => ls ++ ls'

/-- gen-ipc-msg-types.rs:80-95: the tree in `main`. -/
def tree : Tree :=
  .branch "Rosenpass IPC API".toList [.branch "Rosenpass Protocol Server".toList [
    .leaf "Ping Request".toList, .leaf "Ping Response".toList,
    .leaf "Supply Keypair Request".toList, .leaf "Supply Keypair Response".toList,
    .leaf "Add Listen Socket Request".toList, .leaf "Add Listen Socket Response".toList,
    .leaf "Add Psk Broker Request".toList, .leaf "Add Psk Broker Response".toList]]

/-- gen-ipc-msg-types.rs:73-75 `gen_code` and 79-102 `main`: what is printed for one hash function (`main` prints SHAKE256, then BLAKE2b). -/
def gen (C : Crypto) (h : HashChoice) : Option (List Line) := tree.genInner C h []

end Verif.GenIpc
