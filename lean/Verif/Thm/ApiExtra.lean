import Verif.Thm.ApiManager
import Verif.Thm.ApiLive
import Verif.Thm.AppLoop
/-
What the API answers to each request, byte for byte, and what it does (api_handler.rs); when connections are
closed, and what happens to the next one (manager.rs).
-/
namespace Verif.Api
open FdPass (Chan bytes RdOut)
open LengthPrefix (frame frames Enc Dec)

/-! ### Specification -/

/-- a status as it goes over the wire: sixteen bytes, least significant first -/
def code (n : UInt8) : Bytes := n :: List.replicate 15 0

/-- The request of kind `k` with descriptors `fds` is answered with status `n`; afterwards the application is
`a'` and the descriptors `fds'` are left. -/
def Replies (C : Crypto) (checks : Bool) (a : App) (k : Kind) (fds : List Nat) (w : ReqWorld) (n : UInt8) (a' : App) (fds' : List Nat) : Prop :=
  ∀ (rest buf : Bytes), 272 ≤ buf.length →
    handleMessage C checks a (encode .request k [] ++ rest) fds buf w = ⟨.ok 32, a', fds', encode .response k (code n) ++ buf.drop 32⟩

/-- The request is not answered: the handler ends with `f`. -/
def Fails (C : Crypto) (checks : Bool) (a : App) (k : Kind) (fds : List Nat) (w : ReqWorld) (f : Fail) (a' : App) : Prop :=
  ∀ (rest buf : Bytes), 272 ≤ buf.length →
    (handleMessage C checks a (encode .request k [] ++ rest) fds buf w).res = .error f ∧
    (handleMessage C checks a (encode .request k [] ++ rest) fds buf w).app = a'

/-- Reading `n` bytes and then the end of the file from a descriptor succeeds with `b`. -/
def Reads (n : Nat) (content : Bytes) (os : List FileIO.Out) (b : Bytes) : Prop := FileIO.readExactToEnd n content os = some (.ok b)

/-! ### Requests -/

theorem reads_iff (n : Nat) (content : Bytes) (os : List FileIO.Out) (b : Bytes) (h : Reads n content os b) : b = content ∧ content.length = n := by
  have := (FileIO.load_exact (fun _ => some ⟨content, 0⟩) "" ⟨content, 0⟩ rfl n os).1 b
  exact this h

/-- what the server does with a well-formed request of a kind without payload -/
theorem handle_eq (C : Crypto) (checks : Bool) (a : App) (k : Kind) (hk : k ≠ .ping) (rest : Bytes) (fds : List Nat) (buf : Bytes) (hb : 272 ≤ buf.length)
    (w : ReqWorld) : handleMessage C checks a (encode .request k [] ++ rest) fds buf w =
      (match dispatch C checks a ⟨k, encode .request k []⟩ fds (init .response k (buf.take (size .response k))) w with
      | (.error f, a, fds) => ⟨.error f, a, fds, intoBuf buf (init .response k (buf.take (size .response k)))⟩
      | (.ok m, a, fds) => ⟨.ok m.length, a, fds, intoBuf buf m⟩) := by
  have hp : ([] : Bytes).length = payloadSize .request k := by cases k <;> first | exact absurd rfl hk | rfl
  obtain ⟨-, h, -⟩ := encode_parse .request k [] rest hp 0 rfl
  unfold handleMessage
  rw [h]
  dsimp only
  have hs : slot .response k buf = some (buf.take (size .response k)) := by unfold slot; rw [if_pos (Nat.le_trans (size_le _ _) hb)]
  rw [hs]
  dsimp only
  generalize dispatch C checks a _ fds _ w = x
  obtain ⟨r, a', fds'⟩ := x
  cases r <;> rfl

theorem withStatus_eq (k : Kind) (m : Bytes) (n : Nat) (c : UInt8) (hc : n = c.toNat) : withStatus (init .response k m) n = encode .response k (code c) := by
  unfold withStatus
  rw [setPayload_init]
  congr 1
  subst hc
  have h : ∀ c : UInt8, toLE 16 c.toNat = c :: List.replicate 15 0 := by
    intro c
    have hlt : c.toNat < 256 := c.toNat_lt
    unfold toLE
    simp only [show (15 : Nat) = 14 + 1 from rfl, show (16 : Nat) = 15 + 1 from rfl]
    have e1 : c.toNat / 256 = 0 := by omega
    have e0 : ∀ n, toLE n 0 = List.replicate n 0 := by
      intro n
      induction n with
      | zero => rfl
      | succ n ih => unfold toLE; rw [show (0 : Nat) / 256 = 0 from rfl, ih]; rfl
    rw [e1, e0]
    simp
  exact h c

theorem intoBuf_eq (k : Kind) (hk : k ≠ .ping) (buf : Bytes) (c : UInt8) : intoBuf buf (encode .response k (code c)) = encode .response k (code c) ++ buf.drop 32 := by
  unfold intoBuf
  have : (encode .response k (code c)).length = 32 := by simp [encode, toLE_length, code]
  rw [this]

theorem replies_of {C : Crypto} {checks : Bool} {a : App} {k : Kind} (hk : k ≠ .ping) {fds : List Nat} {w : ReqWorld} {st : Nat} {c : UInt8} (hc : st = c.toNat)
    {a' : App} {fds' : List Nat} (h : ∀ m q, dispatch C checks a ⟨k, q⟩ fds m w = (.ok (withStatus m st), a', fds')) : Replies C checks a k fds w c a' fds' := by
  intro rest buf hb
  rw [handle_eq C checks a k hk rest fds buf hb w, h]
  dsimp only
  rw [withStatus_eq k _ st c hc, intoBuf_eq k hk]
  have : (encode .response k (code c)).length = 32 := by simp [encode, toLE_length, code]
  rw [this]

theorem fails_of {C : Crypto} {checks : Bool} {a : App} {k : Kind} (hk : k ≠ .ping) {fds : List Nat} {w : ReqWorld} {f : Fail}
    {a' : App} (h : ∀ m q, ∃ fds', dispatch C checks a ⟨k, q⟩ fds m w = (.error f, a', fds')) : Fails C checks a k fds w f a' := by
  intro rest buf hb
  rw [handle_eq C checks a k hk rest fds buf hb w]
  obtain ⟨fds', h⟩ := h (init .response k (buf.take (size .response k))) (encode .request k [])
  rw [h]
  exact ⟨rfl, rfl⟩

/-- **C90**, supplying the key pair. Without two descriptors, or when one of the files cannot be read or has the wrong size,
the answer is 3 and nothing changes. With readable files: if the protocol server exists already, the answer is 1 and nothing
changes; if it does not exist and no peer was configured twice, it is built from exactly the contents of the two files, secret
key first, and the answer is 0; otherwise there is no answer. The descriptors are not used up by the request itself. -/
theorem supply_status (C : Crypto) (checks : Bool) (a : App) (fds : List Nat) (w : ReqWorld) :
    (fds.length < 2 → Replies C checks a .supplyKeypair fds w 3 a fds) ∧
    ∀ f0 f1 l, fds = f0 :: f1 :: l →
      ((∃ e, FileIO.readExactToEnd sskLen (w.content f0) w.reads0 = some (.error e)) → Replies C checks a .supplyKeypair fds w 3 a fds) ∧
      (∀ sk, Reads sskLen (w.content f0) w.reads0 sk →
        ((∃ e, FileIO.readExactToEnd spkLen (w.content f1) w.reads1 = some (.error e)) → Replies C checks a .supplyKeypair fds w 3 a fds) ∧
        (∀ pk, Reads spkLen (w.content f1) w.reads1 pk →
          (sk = w.content f0 ∧ sk.length = 13608 ∧ pk = w.content f1 ∧ pk.length = 524160) ∧
          (∀ s, a.site = .product s → Replies C checks a .supplyKeypair fds w 1 a fds) ∧
          (∀ b, a.site = .builder b → App.rndOk w.rnd → (∀ x ∈ b.peers, ∀ k, x.psk = some k → k.length = 32) → (b.peers.map (PeerParams.id C)).Nodup →
            ∃ s, Replies C checks a .supplyKeypair fds w 0 { a with site := .product s } fds ∧ s.sskm = sk ∧ s.spkm = pk ∧ s.peers.length = b.peers.length) ∧
          (∀ b, a.site = .builder b → App.rndOk w.rnd → (∀ x ∈ b.peers, ∀ k, x.psk = some k → k.length = 32) → ¬ (b.peers.map (PeerParams.id C)).Nodup →
            Fails C checks a .supplyKeypair fds w .error { a with site := .void }) ∧
          (a.site = .void → Fails C checks a .supplyKeypair fds w .error a))) := by
  refine ⟨?_, ?_⟩
  · intro hl
    refine replies_of (by simp) (st := 3) rfl (fun m q => ?_)
    dsimp only [dispatch, supplyKeypair]
    have : readKeys fds w = .error none := by
      unfold readKeys
      match fds, hl with
      | [], _ => rfl
      | [x], _ => rfl
    rw [this]; rfl
  · rintro f0 f1 l rfl
    refine ⟨?_, ?_⟩
    · rintro ⟨e, he⟩
      refine replies_of (by simp) (st := 3) rfl (fun m q => ?_)
      dsimp only [dispatch, supplyKeypair, readKeys]
      rw [he]; rfl
    · intro sk hsk
      have hsk' : FileIO.readExactToEnd sskLen (w.content f0) w.reads0 = some (.ok sk) := hsk
      refine ⟨?_, ?_⟩
      · rintro ⟨e, he⟩
        refine replies_of (by simp) (st := 3) rfl (fun m q => ?_)
        dsimp only [dispatch, supplyKeypair, readKeys]
        rw [hsk', he]; rfl
      · intro pk hpk
        have hpk' : FileIO.readExactToEnd spkLen (w.content f1) w.reads1 = some (.ok pk) := hpk
        have hrk : readKeys (f0 :: f1 :: l) w = .ok (sk, pk) := by dsimp only [readKeys]; rw [hsk', hpk']
        obtain ⟨e1, e2⟩ := reads_iff _ _ _ _ hsk
        obtain ⟨e3, e4⟩ := reads_iff _ _ _ _ hpk
        refine ⟨⟨e1, by rw [e1, e2]; rfl, e3, by rw [e3, e4]; rfl⟩, ?_, ?_, ?_, ?_⟩
        · intro s hs
          refine replies_of (by simp) (st := 1) rfl (fun m q => ?_)
          dsimp only [dispatch, supplyKeypair]
          rw [hrk]
          dsimp only [App.supply]
          rw [hs]
          rfl
        · intro b hs hr hpsk hnd
          obtain ⟨-, -, b3⟩ := build_exact (C := C) w.rnd hr { b with keypair := some (sk, pk) } hpsk
          obtain ⟨s, g1, g2, g3, g4, -⟩ := b3 sk pk rfl hnd
          have hsup : a.supply C (sk, pk) w.rnd = (.ok, { a with site := .product s }) := by
            unfold App.supply
            rw [hs]
            simp only [Site.erect, Site.modifyTakenWithReturn, Site.take, g1, Option.getD_some]
          refine ⟨s, replies_of (by simp) (st := 0) rfl (fun m q => ?_), g2, g3, by rw [g4]; simp⟩
          dsimp only [dispatch, supplyKeypair]
          rw [hrk]
          dsimp only
          rw [hsup]
          rfl
        · intro b hs hr hpsk hnd
          obtain ⟨-, b2, -⟩ := build_exact (C := C) w.rnd hr { b with keypair := some (sk, pk) } hpsk
          have g1 := b2 sk pk rfl hnd
          have hsup : a.supply C (sk, pk) w.rnd = (.internal, { a with site := .void }) := by
            unfold App.supply
            rw [hs]
            simp only [Site.erect, Site.modifyTakenWithReturn, Site.take, g1, Option.getD_some]
          refine fails_of (by simp) (fun m q => ⟨f0 :: f1 :: l, ?_⟩)
          dsimp only [dispatch, supplyKeypair]
          rw [hrk]
          dsimp only
          rw [hsup]
        · intro hs
          refine fails_of (by simp) (fun m q => ⟨f0 :: f1 :: l, ?_⟩)
          dsimp only [dispatch, supplyKeypair]
          rw [hrk]
          dsimp only [App.supply]
          rw [hs]

/-- **C90**, adding a listen socket. Without a descriptor, or if the first one is not a UDP socket, the answer is 1; if the
socket cannot be registered the answer is 2; in both cases there is no new socket. Otherwise the answer is 0 and there is one
more socket. Exactly the first descriptor is used up. -/
theorem listen_status (C : Crypto) (checks : Bool) (a : App) (w : ReqWorld) :
    Replies C checks a .addListenSocket [] w 1 a [] ∧
    ∀ fd l, (w.udp fd = false → Replies C checks a .addListenSocket (fd :: l) w 1 a l) ∧
      (w.udp fd = true → ∃ a', a'.site = a.site ∧ a'.peers = a.peers ∧ a'.fs = a.fs ∧ a'.brokers.store = a.brokers.store ∧ a'.brokers.io = a.brokers.io ∧
        a.brokers.next < a'.brokers.next ∧
        Replies C checks a .addListenSocket (fd :: l) w (if w.regSock then 0 else 2) a' l ∧ a'.nsock = if w.regSock then a.nsock + 1 else a.nsock) := by
  refine ⟨replies_of (by simp) (st := 1) rfl (fun m q => rfl), fun fd l => ⟨fun h => ?_, fun h => ?_⟩⟩
  · refine replies_of (by simp) (st := 1) rfl (fun m q => ?_)
    dsimp only [dispatch, addListenSocket]
    rw [h]; rfl
  · cases hr : w.regSock with
    | true =>
      refine ⟨{ a with nsock := a.nsock + 1, brokers := { a.brokers with next := a.brokers.next + 1 } }, rfl, rfl, rfl, rfl, rfl, by simp, ?_, rfl⟩
      refine replies_of (by simp) (st := 0) rfl (fun m q => ?_)
      dsimp only [dispatch, addListenSocket, registerSocket]
      rw [h, hr]; rfl
    | false =>
      refine ⟨{ a with brokers := { a.brokers with next := a.brokers.next + 1 } }, rfl, rfl, rfl, rfl, rfl, by simp, ?_, rfl⟩
      refine replies_of (by simp) (st := 2) rfl (fun m q => ?_)
      dsimp only [dispatch, addListenSocket, registerSocket]
      rw [h, hr]; rfl

/-- **C90**, adding a broker. Without a descriptor, or if the first one is not a unix stream socket, the answer is 1 and nothing
changes. If some broker is registered, the most recent one is replaced: with working registration the answer is 0, and the new
broker is found under the handle of the old one (so that the peers that used that one use the new one). -/
theorem broker_status_partial (C : Crypto) (checks : Bool) (a : App) (w : ReqWorld) :
    Replies C checks a .addPskBroker [] w 1 a [] ∧
    ∀ fd l, (w.stream fd = false → Replies C checks a .addPskBroker (fd :: l) w 1 a l) ∧
      (w.stream fd = true → ∀ h name live, App.BrokersOk a.brokers ((h, name) :: live) → w.unregBroker = true → w.regBroker = true →
        ∃ b, Replies C checks a .addPskBroker (fd :: l) w 0 { a with brokers := b } l ∧ App.BrokersOk b ((h, fd) :: live)) := by
  refine ⟨replies_of (by simp) (st := 1) rfl (fun m q => rfl), fun fd l => ⟨fun h => ?_, fun hst h name live hb hu hr => ?_⟩⟩
  · refine replies_of (by simp) (st := 1) rfl (fun m q => ?_)
    dsimp only [dispatch, addPskBroker]
    rw [h]; rfl
  · have hk := hb.keys
    rw [List.map_cons, List.length_cons, List.range_succ, List.reverse_append, List.reverse_singleton, List.singleton_append, List.cons.injEq] at hk
    have hh : h = live.length := hk.1
    have hlen : a.brokers.store.length = live.length + 1 := by rw [hb.len, List.length_cons]
    obtain ⟨u1, u2⟩ := hb.unregister true
    obtain ⟨r1, r2⟩ := u2.register fd
    refine ⟨((a.brokers.unregister h true).2.register fd true).2, ?_, by rw [hh] at r2 ⊢; exact r2⟩
    refine replies_of (by simp) (st := 0) rfl (fun m q => ?_)
    have hrep : replaceBroker a fd live.length w = (some true, { a with brokers := ((a.brokers.unregister h true).2.register fd true).2 }) := by
      unfold replaceBroker
      rw [hu, hr, ← hh]
      generalize a.brokers.unregister h true = x at u1 r1
      obtain ⟨y, b⟩ := x
      dsimp only at u1; subst u1
      simp only [if_true]
      dsimp only at r1
      generalize b.register fd true = z at r1
      obtain ⟨v, b'⟩ := z
      dsimp only at r1; subst r1
      rfl
    dsimp only [dispatch, addPskBroker]
    rw [hst, hlen, if_pos rfl, if_neg (by simp), if_neg (by simp), Nat.add_sub_cancel, hrep]
    rfl

/-- **C90** is false of the last request when no broker is registered (a daemon configured without WireGuard): a build with
overflow checks panics; another build answers "internal error", so a broker can never be added to it. -/
theorem first_broker_refused (C : Crypto) (a : App) (w : ReqWorld) (h0 : a.brokers.store = []) (fd : Nat) (l : List Nat) (hst : w.stream fd = true) :
    Fails C true a .addPskBroker (fd :: l) w .panic a ∧ Replies C false a .addPskBroker (fd :: l) w 2 a l := by
  refine ⟨fails_of (by simp) (fun m q => ⟨l, ?_⟩), replies_of (by simp) (st := 2) rfl (fun m q => ?_)⟩
  · dsimp only [dispatch, addPskBroker]
    rw [hst, h0]; rfl
  · have : a = { a with brokers := a.brokers } := rfl
    dsimp only [dispatch, addPskBroker, replaceBroker, Brokers.unregister]
    rw [hst, h0]
    rfl

/-- **C90** is false of it also when the new broker cannot be registered: the old one is gone, although the answer reports an
error. A peer that used it makes the daemon panic at its next key (C69). -/
theorem failed_replacement_loses_broker (C : Crypto) (checks : Bool) (a : App) (w : ReqWorld) (fd : Nat) (l : List Nat) (hst : w.stream fd = true)
    (h name : Nat) (live : List (Nat × Nat)) (hb : App.BrokersOk a.brokers ((h, name) :: live)) (hu : w.unregBroker = false) :
    ∃ b, Replies C checks a .addPskBroker (fd :: l) w 2 { a with brokers := b } l ∧ b.store.lookup h = none := by
  have hk := hb.keys
  rw [List.map_cons, List.length_cons, List.range_succ, List.reverse_append, List.reverse_singleton, List.singleton_append, List.cons.injEq] at hk
  have hh : h = live.length := hk.1
  have hlen : a.brokers.store.length = live.length + 1 := by rw [hb.len, List.length_cons]
  obtain ⟨u1, u2⟩ := hb.unregister false
  refine ⟨(a.brokers.unregister h false).2, ?_, App.lookup_none_of _ _ (fun x hx => by have := u2.lt x hx; omega)⟩
  refine replies_of (by simp) (st := 2) rfl (fun m q => ?_)
  have hrep : replaceBroker a fd live.length w = (some false, { a with brokers := (a.brokers.unregister h false).2 }) := by
    unfold replaceBroker
    rw [hu, ← hh]
    generalize a.brokers.unregister h false = x at u1
    obtain ⟨y, b⟩ := x
    dsimp only at u1; subst u1
    rfl
  dsimp only [dispatch, addPskBroker]
  rw [hst, hlen, if_pos rfl, if_neg (by simp), if_neg (by simp), Nat.add_sub_cancel, hrep]
  rfl

/-! ### Closing connections -/

/-- **C39**: a connection is closed only when every response to it has been sent completely. -/
theorem closed_after_last_answer (C : Crypto) (checks : Bool) (token : Nat) (es : List Ev) (l : Link) (recs : List Rec)
    (hs : ∀ a w, Ev.poll a w ∈ es → ∀ o ∈ w.reads, RdOut.Sane o) (hr : (Link.new token).run C checks es = some (l, recs))
    (hc : l.conn.shouldClose = some true) :
    ∃ (served : List Served) (cur : Chan), (∀ s ∈ served, s.Ok C checks) ∧ Explains C checks recs served ∧
      (served.map (·.chunk)).flatten ++ cur ++ l.chan = arrived es ∧ l.out = frames (served.map (·.resp)) := by
  obtain ⟨more, cur, pending, h1, h2⟩ := run_inv C checks es _ _ _ _ _ (Link.new_inv C checks token) hs l recs hr
  have hp : pending = [] := by
    obtain ⟨b, hb1, hb2⟩ := exhausted_eq h2.conn.enc.ok
    unfold Conn.shouldClose at hc
    rw [hb1] at hc
    simp only [Option.map_some, Option.some.injEq, Bool.and_eq_true] at hc
    rw [← h2.conn.enc.pending]
    exact hb2.mp hc.2
  refine ⟨more, cur, h2.ok, h1, h2.stream, ?_⟩
  have := h2.out
  rw [hp, List.append_nil] at this
  exact this

namespace Conn

theorem flushLoop_token (c : Conn) (os : List LengthPrefix.IoOut) : (c.flushLoop os).2.1.token = c.token := by
  induction os generalizing c with
  | nil => unfold flushLoop; repeat (first | rfl | split)
  | cons o os ih =>
    unfold flushLoop
    repeat (first | rfl | (refine (ih _).trans ?_; rfl) | split)

theorem flush_token (c : Conn) (os : List LengthPrefix.IoOut) : (c.flush os).2.1.token = c.token := by
  unfold flush
  repeat (first | rfl | exact flushLoop_token c os | split)

theorem readOnce_token (c : Conn) (chan : Chan) (o : RdOut) : (c.readOnce chan o).2.1.token = c.token := by
  unfold readOnce
  split
  · dsimp only
    split <;> rfl
  · rfl

theorem recvLoop_token (c : Conn) (chan : Chan) (os : List RdOut) : (c.recvLoop chan os).2.1.token = c.token := by
  induction os generalizing c chan with
  | nil => unfold recvLoop; repeat (first | rfl | split)
  | cons o os ih =>
    unfold recvLoop
    have h := readOnce_token c chan o
    generalize c.readOnce chan o = x at h ⊢
    repeat (first | exact h | (refine (ih _ _).trans ?_; exact h) | split)

theorem recv_token (c : Conn) (chan : Chan) (os : List RdOut) : (c.recv chan os).2.1.token = c.token := by
  unfold recv
  repeat (first | rfl | exact recvLoop_token c chan os | split)

theorem handle_token (C : Crypto) (checks : Bool) (a : App) (c : Conn) (w : ReqWorld) : (c.handle C checks a w).2.2.token = c.token := by
  unfold handle
  split
  · dsimp only
    generalize handleMessage C checks a _ c.fds c.enc.buf w = r
    split
    · rfl
    · generalize Enc.restartWith _ _ = x
      obtain ⟨y, e⟩ := x
      split <;> rfl
  · rfl

/-- polling a connection does not change its token -/
theorem poll_token (C : Crypto) (checks : Bool) (a : App) (c : Conn) (chan : Chan) (w : PollWorld) : (c.poll C checks a chan w).conn.token = c.token := by
  unfold poll
  have h1 := flush_token c w.flush0
  generalize c.flush w.flush0 = x at h1 ⊢
  obtain ⟨s1, c1, b1⟩ := x
  dsimp only at h1
  have h2 := recv_token c1 chan w.reads
  cases s1 with
  | wait => exact h1
  | fail f => exact h1
  | go =>
    dsimp only
    generalize c1.recv chan w.reads = x at h2 ⊢
    obtain ⟨s2, c2, ch⟩ := x
    dsimp only at h2
    have h3 := handle_token C checks a c2 w.req
    cases s2 with
    | wait => exact h2.trans h1
    | fail f => exact h2.trans h1
    | go =>
      dsimp only
      generalize c2.handle C checks a w.req = x at h3 ⊢
      obtain ⟨s3, a3, c3⟩ := x
      dsimp only at h3
      cases s3 with
      | wait => exact (h3.trans h2).trans h1
      | fail f => exact (h3.trans h2).trans h1
      | go => exact (((flush_token c3 w.flush1).trans h3).trans h2).trans h1

end Conn

namespace Mgr

/-- a connection is put behind the empty slots when no connection is open -/
theorem slotFor_empty (conns : List (Option Client)) (h : ∀ x ∈ conns, x = none) : slotFor conns = conns.length := by
  unfold slotFor
  have : conns.findIdx? (·.isSome) = none := by
    rw [List.findIdx?_eq_none_iff]
    intro x hx
    rw [h x hx]; rfl
  rw [this]; rfl

/-- **C91** is false: as soon as as many API connections were closed as there are listeners, and none is open, the next client
that connects makes the daemon panic with its first event, without having sent a request. -/
theorem connection_after_close_panics (C : Crypto) (checks : Bool) (m : Mgr) (hm : ∀ x ∈ m.conns, x = none) (hl : m.listeners ≤ m.conns.length)
    (a a' : App) (id : Nat) (hf : m.index.lookup a.brokers.next = none) (acc : Nat → List Accept) (w : Nat → PollWorld) :
    ∃ m', m.step C checks (.connect a id true) = (.ok (), m') ∧ (m'.event C checks a' a.brokers.next acc w).res = .error .panic := by
  have hadd : m.addConnection a id [] true = ⟨.ok (), (dispense a).2, ⟨m.listeners, m.conns.insertIdx m.conns.length (some ⟨id, ⟨(Link.new a.brokers.next).conn, [], []⟩⟩),
      Brokers.put m.index a.brokers.next (.listener m.conns.length)⟩⟩ := by
    unfold addConnection
    dsimp only
    rw [if_neg (by simp), show (dispense a).1 = a.brokers.next from rfl, Link.new_eq]
    dsimp only
    rw [slotFor_empty _ hm]
    unfold registerSource
    dsimp only
    rw [hf]
    rfl
  refine ⟨_, by dsimp only [step]; rw [hadd], ?_⟩
  unfold event
  dsimp only
  rw [App.lookup_put, if_pos rfl]
  dsimp only [pollParticular, acceptFrom]
  rw [if_neg (by omega)]

/-- **C91** is false, from the start: a daemon has one API socket. A client connects and sends the header of a request of more
than 4096 bytes; its connection is closed. The next client connects, and its first event makes the daemon panic. -/
theorem oversized_request_then_reconnect_panics (C : Crypto) (checks : Bool) (a1 a2 a3 a4 a5 : App) (id id' : Nat) (chunk : Chan)
    (h8 : 8 ≤ (bytes chunk).length) (hb : 4096 < leNat ((bytes chunk).take 8)) (w : Nat → PollWorld) (hw : (w 0).Coop chunk.length)
    (ht : a2.brokers.next ≠ a1.brokers.next) (ht' : a4.brokers.next ≠ a1.brokers.next) (acc : Nat → List Accept) (w' : Nat → PollWorld) :
    ∃ m, Mgr.new.run C checks [.listener a1 true, .connect a2 id true, .send id chunk, .poll a3 (fun _ => []) w, .connect a4 id' true] = some m ∧
      (m.event C checks a5 a4.brokers.next acc w').res = .error .panic := by
  have s1 : Mgr.new.step C checks (.listener a1 true) = (.ok (), ⟨1, [], [(a1.brokers.next, .listener 0)]⟩) := rfl
  have s2 : (⟨1, [], [(a1.brokers.next, .listener 0)]⟩ : Mgr).step C checks (.connect a2 id true) = (.ok (), ⟨1, [some ⟨id, Link.new a2.brokers.next⟩],
      [(a2.brokers.next, .listener 0), (a1.brokers.next, .listener 0)]⟩) := by
    dsimp only [step, addConnection]
    rw [if_neg (by simp), show (dispense a2).1 = a2.brokers.next from rfl, Link.new_eq]
    dsimp only [registerSource]
    have : List.lookup a2.brokers.next [(a1.brokers.next, Src.listener 0)] = none := App.lookup_none_of _ _ (by simp; exact fun h => ht h.symm)
    rw [this]
    simp only [Option.isSome_none, Bool.false_eq_true, if_false, Brokers.put]
    have : ([(a1.brokers.next, Src.listener 0)].filter (fun x => x.1 ≠ a2.brokers.next)) = [(a1.brokers.next, .listener 0)] :=
      App.filter_self _ _ (by simp; exact fun h => ht h.symm)
    rw [this]
    rfl
  have s3 : (⟨1, [some ⟨id, Link.new a2.brokers.next⟩], [(a2.brokers.next, .listener 0), (a1.brokers.next, .listener 0)]⟩ : Mgr).step C checks (.send id chunk) =
      (.ok (), ⟨1, [some ⟨id, { Link.new a2.brokers.next with chan := chunk }⟩], [(a2.brokers.next, .listener 0), (a1.brokers.next, .listener 0)]⟩) := by
    have hch : (Link.new a2.brokers.next).chan = [] := rfl
    generalize Link.new a2.brokers.next = L at hch ⊢
    dsimp only [step, arrive, List.map, Option.map]
    rw [if_pos rfl, hch, List.nil_append]
  have hinv : LinkInv C checks { Link.new a2.brokers.next with chan := chunk } chunk [] [] [] := by
    have h := Link.new_inv C checks a2.brokers.next
    exact ⟨h.conn, rfl, h.out, h.last, h.ok⟩
  obtain ⟨p1, p2, p3, p4⟩ := oversized_request_closes C checks { Link.new a2.brokers.next with chan := chunk } chunk [] [] [] hinv rfl (by simpa using h8)
    (by simpa using hb) a3 (w 0) hw _ rfl
  -- polling does not change the token
  have htok : ((Link.new a2.brokers.next).conn.poll C checks a3 chunk (w 0)).conn.token = a2.brokers.next := Conn.poll_token C checks a3 _ chunk (w 0)
  have hpc : (⟨1, [some ⟨id, { Link.new a2.brokers.next with chan := chunk }⟩], [(a2.brokers.next, .listener 0), (a1.brokers.next, .listener 0)]⟩ : Mgr).pollConnection
      C checks a3 0 w = ⟨.ok (), a3, ⟨1, [none], [(a1.brokers.next, .listener 0)]⟩⟩ := by
    unfold pollConnection
    simp only [List.getElem?_cons_zero]
    dsimp only at p1 p2 p4
    rw [p1]
    dsimp only
    rw [p4]
    dsimp only
    rw [p2, htok]
    have hl : List.lookup a2.brokers.next [(a2.brokers.next, Src.listener 0), (a1.brokers.next, .listener 0)] = some (.listener 0) := by simp [List.lookup]
    rw [hl]
    simp only [Option.isNone_some, Bool.false_eq_true, if_false, List.set_cons_zero]
    have : ([(a2.brokers.next, Src.listener 0), (a1.brokers.next, .listener 0)].filter (fun x => x.1 ≠ a2.brokers.next)) = [(a1.brokers.next, .listener 0)] := by
      rw [List.filter_cons_of_neg (by simp)]
      exact App.filter_self _ _ (by simp; exact fun h => ht h.symm)
    rw [this]
  have s4 : (⟨1, [some ⟨id, { Link.new a2.brokers.next with chan := chunk }⟩], [(a2.brokers.next, .listener 0), (a1.brokers.next, .listener 0)]⟩ : Mgr).step C checks
      (.poll a3 (fun _ => []) w) = (.ok (), ⟨1, [none], [(a1.brokers.next, .listener 0)]⟩) := by
    dsimp only [step, poll, acceptConnections]
    simp only [List.range_succ, List.range_zero, List.nil_append, each, acceptFrom, acceptLoop, Nat.zero_lt_one, if_true]
    dsimp only [pollConnections]
    simp only [List.length_cons, List.length_nil, List.range_succ, List.range_zero, List.nil_append, each]
    rw [hpc]
  obtain ⟨m', s5, h5⟩ := connection_after_close_panics C checks ⟨1, [none], [(a1.brokers.next, .listener 0)]⟩ (by simp) (by simp) a4 a5 id'
    (App.lookup_none_of _ _ (by simp; exact fun h => ht' h.symm)) acc w'
  refine ⟨m', ?_, h5⟩
  unfold run; rw [s1]; dsimp only
  unfold run; rw [s2]; dsimp only
  unfold run; rw [s3]; dsimp only
  unfold run; rw [s4]; dsimp only
  unfold run; rw [s5]; dsimp only
  unfold run; rfl

/-- no connection was closed yet, there is a listener, and tokens are handed out in order -/
structure Sound (a : App) (m : Mgr) : Prop where
  listener : 0 < m.listeners
  open_ : ∀ x ∈ m.conns, x.isSome
  src : ∀ e ∈ m.index, ∃ i, i < m.listeners ∧ e.2 = .listener i
  fresh : ∀ e ∈ m.index, e.1 < a.brokers.next

theorem slotFor_open (conns : List (Option Client)) (h : ∀ x ∈ conns, x.isSome) : slotFor conns = 0 := by
  cases conns with
  | nil => rfl
  | cons x l =>
    have : x.isSome = true := h x (by simp)
    unfold slotFor
    rw [List.findIdx?_cons, this]; rfl

theorem Sound.add {a : App} {m : Mgr} (h : Sound a m) (id : Nat) (chan : Chan) :
    (m.addConnection a id chan true).res = .ok () ∧ Sound (m.addConnection a id chan true).app (m.addConnection a id chan true).mgr ∧
    (m.addConnection a id chan true).mgr.conns = some ⟨id, ⟨(Link.new a.brokers.next).conn, chan, []⟩⟩ :: m.conns := by
  have hl : m.index.lookup a.brokers.next = none := App.lookup_none_of _ _ (fun x hx => by have := h.fresh x hx; omega)
  have hadd : m.addConnection a id chan true = ⟨.ok (), (dispense a).2, ⟨m.listeners, some ⟨id, ⟨(Link.new a.brokers.next).conn, chan, []⟩⟩ :: m.conns,
      Brokers.put m.index a.brokers.next (.listener 0)⟩⟩ := by
    unfold addConnection
    dsimp only
    rw [if_neg (by simp), show (dispense a).1 = a.brokers.next from rfl, Link.new_eq]
    dsimp only
    rw [slotFor_open _ h.open_]
    unfold registerSource
    dsimp only
    rw [hl]
    rfl
  rw [hadd]
  refine ⟨rfl, ⟨h.listener, ?_, ?_, ?_⟩, rfl⟩
  · intro x hx
    rcases List.mem_cons.mp hx with hx | hx
    · rw [hx]; rfl
    · exact h.open_ x hx
  · intro e he
    rcases List.mem_cons.mp he with he | he
    · exact ⟨0, h.listener, by rw [he]⟩
    · exact h.src e (List.mem_filter.mp he).1
  · intro e he
    show e.1 < a.brokers.next + 1
    rcases List.mem_cons.mp he with he | he
    · rw [he]; exact Nat.lt_succ_self _
    · exact Nat.lt_succ_of_lt (h.fresh e (List.mem_filter.mp he).1)

/-- **C91**, what holds: as long as no connection was closed, every event of the API sockets is handled without a panic, and every
client that connects gets a connection, in front of the others, which stay as they are. (That holds for any number of clients. It
is false once connections are closed.) -/
theorem events_before_first_close_partial (C : Crypto) (checks : Bool) (a : App) (m : Mgr) (h : Sound a m) (tok : Nat) (acc : Nat → List Accept) (w : Nat → PollWorld)
    (hacc : ∀ i, ∀ x ∈ acc i, ∃ id chan, x = .conn id chan true) :
    (m.event C checks a tok acc w).res = .ok () ∧ Sound (m.event C checks a tok acc w).app (m.event C checks a tok acc w).mgr ∧
    ∃ new, (m.event C checks a tok acc w).mgr.conns = new ++ m.conns ∧ (∀ x ∈ new, x.isSome) ∧
      (∀ i, m.index.lookup tok = some (.listener i) → new.length = (acc i).length) := by
  have key : ∀ (l : List Accept) (a : App) (m : Mgr), Sound a m → (∀ x ∈ l, ∃ id chan, x = .conn id chan true) →
      (m.acceptLoop a l).res = .ok () ∧ Sound (m.acceptLoop a l).app (m.acceptLoop a l).mgr ∧
        ∃ new, (m.acceptLoop a l).mgr.conns = new ++ m.conns ∧ (∀ x ∈ new, x.isSome) ∧ new.length = l.length := by
    intro l
    induction l with
    | nil => intro a m h _; exact ⟨rfl, h, [], rfl, by simp, rfl⟩
    | cons x l ih =>
      intro a m h hl
      obtain ⟨id, chan, rfl⟩ := hl x (by simp)
      obtain ⟨a1, a2, a3⟩ := h.add id chan
      unfold acceptLoop
      simp only [a1]
      obtain ⟨i1, i2, new, i3, i4, i5⟩ := ih _ _ a2 (fun x hx => hl x (by simp [hx]))
      refine ⟨i1, i2, new ++ [some ⟨id, ⟨(Link.new a.brokers.next).conn, chan, []⟩⟩], by rw [i3, a3]; simp, ?_, by simp [i5]⟩
      intro x hx
      rcases List.mem_append.mp hx with hx | hx
      · exact i4 x hx
      · rw [List.mem_singleton.mp hx]; rfl
  unfold event
  cases hlk : m.index.lookup tok with
  | none => exact ⟨rfl, h, [], rfl, by simp, by simp⟩
  | some src =>
    have hmem : (tok, src) ∈ m.index := by
      rw [List.lookup_eq_some_iff] at hlk
      obtain ⟨l1, l2, e, -⟩ := hlk
      rw [e]; simp
    obtain ⟨i, hi, hsrc⟩ := h.src _ hmem
    dsimp only at hsrc
    subst hsrc
    dsimp only [pollParticular, acceptFrom]
    rw [if_pos hi]
    obtain ⟨k1, k2, new, k3, k4, k5⟩ := key (acc i) a m h (hacc i)
    exact ⟨k1, k2, new, k3, k4, fun j hj => by injection hj with hj; injection hj with hj; rw [← hj]; exact k5⟩

/-- the hypotheses are met: a daemon with its API socket -/
example (a : App) : Sound (dispense a).2 ⟨1, [], [(a.brokers.next, .listener 0)]⟩ :=
  ⟨by simp, by simp, by simp, by simp [dispense]⟩

end Mgr
end Verif.Api
