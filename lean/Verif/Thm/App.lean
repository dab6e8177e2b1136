import Verif.Model.App
import Verif.Thm.Build
import Verif.Thm.Endpoint
import Verif.Thm.FileIO
import Verif.Thm.Total
import Verif.Thm.Lifecycle
import Verif.Thm.Fair
/-
The event loop of the application (app_server.rs): which keys are output, and when.
-/
namespace Verif
open Server FileIO

/-- Does the output carry or announce a key? -/
def Output.isKey : Output → Bool
  | .datagram _ _ _ => false
  | _ => true

/-- The sizes the Rust types give to what the environment supplies. -/
structure World.WF (C : Crypto) (e : World) : Prop where
  prnd : (∀ i, (e.prnd.b i).length = 32 ∧ (e.prnd.c i).length = 16) ∧ e.prnd.jit < 2 ^ 53
  rnd : ∀ h, (e.rnd h).WF C
  rnd0 : e.rnd0.WF C
  stale : e.stale.length = 32

/-- The call by which the protocol server handles a received message. -/
def World.receive (e : World) (rx : Bytes) (sock : Nat) (addr : Addr) : Op :=
  if e.load then .handleMsgUnderLoad rx e.tx (hostId sock addr) e.later e.rnd else .handleMsg rx e.tx e.later e.rnd

namespace App
variable {C : Crypto}

/-! ### Specification -/

/-- In this round the application has a key `k` to output for peer `p`: the protocol server reported
that the peer's key has expired (the key is then a random one), or it completed an exchange with the
peer while handling a received message, and `k` is the output key of the new session. -/
inductive KeyEvent (C : Crypto) (a : App) (e : World) : Nat → Reason → Bytes → Prop
  | stale (s s1 p) : a.site = .product s → s.poll e.now e.prnd = some (.deleteKey p, s1) → KeyEvent C a e p .stale e.stale
  | exchanged (s s1 t rx sock addr p m k) : a.site = .product s → s.poll e.now e.prnd = some (.sleep t, s1) →
      e.io = .msg rx sock addr → (e.receive rx sock addr).result C s1 = .ok ⟨some p, m⟩ →
      (s1.step C (e.receive rx sock addr)).osk C p = .ok k → KeyEvent C a e p .exchanged k

/-- What the broker of a peer is to be told about key `k`. -/
def brokerUpdate (ap : AppPeer) (brokers : Brokers) (k : Bytes) : List Output :=
  match ap.broker with
  | some (ptr, cfg) => (match brokers.store.lookup ptr with | some b => [.psk b.name cfg k] | none => [])
  | none => []

/-- What is to be announced when key `k` of the peer with id `pid` is output. -/
def announcements (ap : AppPeer) (brokers : Brokers) (pid : Bytes) (why : Reason) (k : Bytes) : List Output :=
  (match ap.outfile with | some f => [.line pid f why] | none => []) ++ brokerUpdate ap brokers k

/-- The application's table of peers is as long as that of the protocol server (or its builder). -/
def Aligned (a : App) : Prop :=
  match a.site with
  | .product s => s.peers.length = a.peers.length
  | .builder b => b.peers.length = a.peers.length
  | .void => True

/-- The brokers the peers refer to are registered. -/
def BrokersPresent (a : App) : Prop :=
  ∀ ap ∈ a.peers, ∀ ptr cfg, ap.broker = some (ptr, cfg) → (a.brokers.store.lookup ptr).isSome

/-! ### Parts of a round -/

/-- What no round changes. -/
structure Frame (a a' : App) : Prop where
  nsock : a'.nsock = a.nsock
  brokers : a'.brokers = a.brokers
  len : a'.peers.length = a.peers.length
  peers : ∀ (i : Nat) ap, a.peers[i]? = some ap → ∃ ap', a'.peers[i]? = some ap' ∧ ap'.outfile = ap.outfile ∧ ap'.broker = ap.broker

theorem Frame.refl (a : App) : Frame a a := ⟨rfl, rfl, rfl, fun _ ap h => ⟨ap, h, rfl, rfl⟩⟩

theorem Frame.trans {a b c : App} (h : Frame a b) (g : Frame b c) : Frame a c := by
  refine ⟨g.1.trans h.1, g.2.trans h.2, g.3.trans h.3, fun i ap hi => ?_⟩
  obtain ⟨ap1, h1, h2, h3⟩ := h.4 i ap hi
  obtain ⟨ap2, g1, g2, g3⟩ := g.4 i ap1 h1
  exact ⟨ap2, g1, g2.trans h2, g3.trans h3⟩

theorem Frame.site (a : App) (x : Site Builder Server) : Frame a { a with site := x } :=
  ⟨rfl, rfl, rfl, fun _ ap h => ⟨ap, h, rfl, rfl⟩⟩

theorem Frame.fs (a : App) (x : Fs) : Frame a { a with fs := x } :=
  ⟨rfl, rfl, rfl, fun _ ap h => ⟨ap, h, rfl, rfl⟩⟩

theorem Frame.set (a : App) (p : Nat) (ap ap1 : AppPeer) (hp : a.peers[p]? = some ap) (h1 : ap1.outfile = ap.outfile)
    (h2 : ap1.broker = ap.broker) : Frame a { a with peers := a.peers.set p ap1 } := by
  refine ⟨rfl, rfl, List.length_set, fun i q hi => ?_⟩
  by_cases hip : p = i
  · subst hip
    rw [hp] at hi; cases hi
    exact ⟨ap1, by simp [List.getElem?_set, (List.getElem?_eq_some_iff.mp hp).1], h1, h2⟩
  · exact ⟨q, by simp [List.getElem?_set, hip, hi], rfl, rfl⟩

theorem b64_32 {k : Bytes} (hk : k.length = 32) : b64Encode k maxB64KeySize = .ok (b64Enc k) := by
  unfold b64Encode
  rw [if_pos (by rw [b64Enc_length, hk]; decide)]

/-- storing a key in the output file -/
theorem storeKey_spec (a : App) (file : String) (k : Bytes) (hk : k.length = 32) (e : World) :
    ∃ fs, a.storeKey file k e = ⟨(a.storeKey file k e).fate, { a with fs := fs }, []⟩ ∧
      (∀ path, path ≠ file → fs path = a.fs path) ∧
      (fs file = a.fs file ∨ ∃ w m, fs file = some ⟨w, m⟩ ∧ w <+: b64Enc k) ∧
      ((a.storeKey file k e).fate = .next → ∃ m, fs file = some ⟨b64Enc k, m⟩ ∧ (a.fs file = none → m &&& 0o077 = 0)) ∧
      (a.storeKey file k e).fate ≠ .panic ∧ (a.storeKey file k e).fate ≠ .exit ∧
      (e.openOk = true → (writeAll (b64Enc k) e.writes).1 = some (.ok ()) → (a.storeKey file k e).fate = .next) := by
  unfold storeKey
  by_cases ho : e.openOk = true
  · rw [if_pos ho]
    simp only [storeB64, b64_32 hk]
    obtain ⟨m, w, h1, h2, h3, h4, h5⟩ := writeFile_spec a.fs e.umask file .secret (b64Enc k) e.writes
    obtain ⟨w1, w2, -, -⟩ := writeAll_spec e.writes (b64Enc k)
    have hm : a.fs file = none → m &&& 0o077 = 0 := by
      intro hn
      rw [h5, hn]
      show 0o600 &&& _ &&& 0o077 = 0
      rw [and_rc]
      show (0 : Nat) &&& _ = 0
      exact Nat.zero_and _
    generalize hx : writeFile a.fs e.umask file .secret (b64Enc k) e.writes = x at *
    obtain ⟨o, fs⟩ := x
    dsimp only at *
    rcases o with _ | (er | ⟨⟩)
    · refine ⟨fs, rfl, h4, .inr ⟨w, m, h1, h2 ▸ w1⟩, fun h => (nomatch h), (fun h => nomatch h), (fun h => nomatch h), fun _ h => ?_⟩
      rw [← h3] at h; cases h
    · refine ⟨fs, rfl, h4, .inr ⟨w, m, h1, h2 ▸ w1⟩, fun h => (nomatch h), (fun h => nomatch h), (fun h => nomatch h), fun _ h => ?_⟩
      rw [← h3] at h; cases h
    · refine ⟨fs, rfl, h4, .inr ⟨w, m, h1, h2 ▸ w1⟩, fun _ => ⟨m, ?_, hm⟩, (fun h => nomatch h), (fun h => nomatch h), fun _ _ => rfl⟩
      rw [h1, h2, w2 h3.symm]
  · rw [if_neg ho]
    exact ⟨a.fs, rfl, fun _ _ => rfl, .inl rfl, fun h => (nomatch h), (fun h => nomatch h), (fun h => nomatch h), fun h => absurd h ho⟩

/-- What `output_key` does, whatever fails. -/
structure OutSpec (a : App) (p : Nat) (ap : AppPeer) (pid : Bytes) (why : Reason) (k : Bytes) (e : World) (r : Res) : Prop where
  app : ∃ fs, r.app = { a with fs := fs }
  out : r.out <+: announcements ap a.brokers pid why k
  files : ∀ path, r.app.fs path ≠ a.fs path → ap.outfile = some path ∧ ∃ w m, r.app.fs path = some ⟨w, m⟩ ∧ w <+: b64Enc k
  noexit : r.fate ≠ .exit
  nopanic : (∀ ptr cfg, ap.broker = some (ptr, cfg) → (a.brokers.store.lookup ptr).isSome) → r.fate ≠ .panic
  done : r.fate = .next → r.out = announcements ap a.brokers pid why k ∧
    ∀ file, ap.outfile = some file → ∃ m, r.app.fs file = some ⟨b64Enc k, m⟩ ∧ (a.fs file = none → m &&& 0o077 = 0)
  works : (∀ ptr cfg, ap.broker = some (ptr, cfg) → (a.brokers.store.lookup ptr).isSome) → e.openOk = true →
    (writeAll (b64Enc k) e.writes).1 = some (.ok ()) → e.lineOk = true → e.pskOk = true → r.fate = .next

theorem outputKey_spec (a : App) (p : Nat) (why : Reason) (k : Bytes) (hk : k.length = 32) (e : World) (srv : Server) (peer : Peer) (ap : AppPeer)
    (hs : a.site = .product srv) (hp : srv.peers[p]? = some peer) (ha : a.peers[p]? = some ap) :
    OutSpec a p ap (pidt C peer) why k e (a.outputKey C p why k e) := by
  unfold outputKey
  have hpr : a.site.productRef = some srv := by rw [hs]; rfl
  rw [hpr]
  dsimp only
  rw [hp, ha]
  dsimp only
  -- `set_psk`
  have psk : ∀ (b : App), b.peers = a.peers → b.brokers = a.brokers →
      ∃ f o, b.setPsk p k e = ⟨f, b, o⟩ ∧ f ≠ .exit ∧
      o <+: brokerUpdate ap a.brokers k ∧
      (f = .next → o = brokerUpdate ap a.brokers k) ∧
      ((∀ ptr cfg, ap.broker = some (ptr, cfg) → (a.brokers.store.lookup ptr).isSome) → f ≠ .panic ∧ (e.pskOk = true → f = .next)) := by
    intro b h1 h2
    unfold setPsk brokerUpdate
    rw [h1, ha, h2]
    dsimp only
    rcases hb : ap.broker with _ | ⟨ptr, cfg⟩
    · exact ⟨.next, [], rfl, (fun h => nomatch h), List.prefix_refl _, fun _ => rfl, fun _ => ⟨(fun h => nomatch h), fun _ => rfl⟩⟩
    · dsimp only
      cases hl : a.brokers.store.lookup ptr with
      | none =>
        refine ⟨.panic, [], rfl, (fun h => nomatch h), List.prefix_refl _, (fun h => nomatch h), fun h => ?_⟩
        have := h ptr cfg rfl
        rw [hl] at this; cases this
      | some br =>
        dsimp only
        by_cases hok : e.pskOk = true
        · rw [if_pos hok]; exact ⟨.next, _, rfl, (fun h => nomatch h), List.prefix_refl _, fun _ => rfl, fun _ => ⟨(fun h => nomatch h), fun _ => rfl⟩⟩
        · rw [if_neg hok]; exact ⟨.error, [], rfl, (fun h => nomatch h), List.nil_prefix, (fun h => nomatch h), fun _ => ⟨(fun h => nomatch h), fun h => absurd h hok⟩⟩
  cases hf : ap.outfile with
  | none =>
    dsimp only
    obtain ⟨f, o, h1, h2, h3, h4, h5⟩ := psk a rfl rfl
    unfold Res.andThen
    dsimp only
    rw [h1]
    dsimp only
    have han : announcements ap a.brokers (pidt C peer) why k = brokerUpdate ap a.brokers k := by unfold announcements; rw [hf]; exact List.nil_append _
    refine ⟨⟨a.fs, rfl⟩, ?_, fun path h => absurd rfl h, h2, fun h => (h5 h).1, fun h => ⟨?_, fun file h => by rw [hf] at h; cases h⟩, fun h _ _ _ hpk => (h5 h).2 hpk⟩
    · rw [han, List.nil_append]; exact h3
    · rw [han, List.nil_append]; exact h4 h
  | some file =>
    dsimp only
    obtain ⟨fs, h1, h2, h3, h4, h5, h5', h6⟩ := storeKey_spec a file k hk e
    have files : ∀ path, fs path ≠ a.fs path → some file = some path ∧ ∃ w m, fs path = some ⟨w, m⟩ ∧ w <+: b64Enc k := by
      intro path hne
      by_cases hpf : path = file
      · subst hpf
        rcases h3 with h3 | h3
        · exact absurd h3 hne
        · exact ⟨rfl, h3⟩
      · exact absurd (h2 path hpf) hne
    have han : announcements ap a.brokers (pidt C peer) why k = [.line (pidt C peer) file why] ++ brokerUpdate ap a.brokers k := by unfold announcements; rw [hf]
    rw [h1]
    generalize hfate : (a.storeKey file k e).fate = ft at h1 h4 h5 h5' h6 ⊢
    have stuck : ∀ f, f ≠ Fate.next → f ≠ .exit → f ≠ .panic → ((e.openOk = true → (writeAll (b64Enc k) e.writes).1 = some (.ok ()) → e.lineOk = true → f = .next)) →
        OutSpec a p ap (pidt C peer) why k e ⟨f, { a with fs := fs }, []⟩ := by
      intro f g1 g2 g3 g4
      exact ⟨⟨fs, rfl⟩, List.nil_prefix, by rw [hf]; exact files, g2, fun _ => g3, fun h => absurd h g1, fun _ a b c _ => g4 a b c⟩
    cases ft with
    | next =>
      unfold Res.andThen
      dsimp only
      by_cases hl : e.lineOk = true
      · rw [if_pos hl]
        obtain ⟨f, o, g1, g2, g3, g4, g5⟩ := psk { a with fs := fs } rfl rfl
        dsimp only
        rw [g1]
        dsimp only
        refine ⟨⟨fs, rfl⟩, ?_, by rw [hf]; exact files, g2, fun h => (g5 h).1, fun h => ⟨?_, fun file' h => ?_⟩, fun h _ _ _ hpk => (g5 h).2 hpk⟩
        · rw [han]; exact (List.prefix_append_right_inj _).mpr g3
        · rw [han, g4 h]; rfl
        · rw [hf] at h; cases h; exact h4 rfl
      · rw [if_neg hl]
        exact stuck .error (fun h => nomatch h) (fun h => nomatch h) (fun h => nomatch h) (fun _ _ h => absurd h hl)
    | exit => exact absurd rfl h5'
    | error => exact stuck .error (fun h => nomatch h) (fun h => nomatch h) (fun h => nomatch h) (fun a b _ => h6 a b)
    | panic => exact absurd rfl h5
    | killed => exact stuck .killed (fun h => nomatch h) (fun h => nomatch h) (fun h => nomatch h) (fun a b _ => h6 a b)

/-! ### A whole round -/

/-- sending to a peer changes no key output -/
theorem sendPeer_spec (a : App) (p : Nat) (msg : Bytes) (e : World) :
    Frame a (a.sendPeer p msg e).app ∧ (a.sendPeer p msg e).app.site = a.site ∧ (a.sendPeer p msg e).app.fs = a.fs ∧
    (∀ x ∈ (a.sendPeer p msg e).out, x.isKey = false) ∧ (a.sendPeer p msg e).fate ≠ .exit := by
  unfold sendPeer
  cases hp : a.peers[p]? with
  | none => exact ⟨.refl _, rfl, rfl, by simp, by simp⟩
  | some ap =>
    dsimp only
    rcases ap.endpoint with _ | (⟨s, addr⟩ | d)
    · exact ⟨.refl _, rfl, rfl, by simp, by simp⟩
    · dsimp only
      split
      · exact ⟨.refl _, rfl, rfl, by simp [Output.isKey], by simp⟩
      · exact ⟨.refl _, rfl, rfl, by simp, by simp⟩
    · dsimp only
      have hf : ∀ ep, Frame a { a with peers := a.peers.set p (if ap.current.isSome = true then { ap with current := some ep } else { ap with initial := some ep }) } :=
        fun ep => .set a p ap _ hp (by split <;> rfl) (by split <;> rfl)
      split
      · split
        · exact ⟨hf _, rfl, rfl, by simp, by simp⟩
        · split
          · exact ⟨hf _, rfl, rfl, by simp, by simp⟩
          · exact ⟨hf _, rfl, rfl, by simp [Output.isKey], by simp⟩
      · exact ⟨hf _, rfl, rfl, by simp, by simp⟩

/-- What a part of a round does that outputs no key. -/
structure Plain (C : Crypto) (a : App) (s : Server) (r : Res) : Prop where
  frame : Frame a r.app
  fs : r.app.fs = a.fs
  out : ∀ x ∈ r.out, x.isKey = false

theorem txMaybe_spec (a : App) (p : Nat) (call : Server → Except Err Bytes × Server) (e : World) (s : Server) (hs : a.site = .product s) :
    Plain C a s (a.txMaybe p call e) ∧ (a.txMaybe p call e).fate ≠ .exit ∧
    ((a.txMaybe p call e).app.site = .product s ∨ (a.txMaybe p call e).app.site = .product (call s).2) := by
  unfold txMaybe
  cases hp : a.peers[p]? with
  | none => exact ⟨⟨.refl _, rfl, by simp⟩, by simp, .inl hs⟩
  | some ap =>
    dsimp only
    split
    · have : a.site.productRef = some s := by rw [hs]; rfl
      rw [this]
      dsimp only
      rcases hc : call s with ⟨(x | msg), s1⟩
      · exact ⟨⟨.site _ _, rfl, by simp⟩, by cases x <;> simp [fateOf], .inr rfl⟩
      · dsimp only
        obtain ⟨h1, h2, h3, h4, h5⟩ := sendPeer_spec { a with site := .product s1 } p msg e
        exact ⟨⟨(Frame.site a _).trans h1, h3, h4⟩, h5, .inr h2⟩
    · exact ⟨⟨.refl _, rfl, by simp⟩, by simp, .inl hs⟩

theorem filter_none {l : List Output} (h : ∀ x ∈ l, x.isKey = false) : l.filter Output.isKey = [] := by
  rw [List.filter_eq_nil_iff]
  intro x hx; rw [h x hx]; simp

theorem announcements_isKey (ap : AppPeer) (b : Brokers) (pid : Bytes) (why : Reason) (k : Bytes) :
    ∀ x ∈ announcements ap b pid why k, x.isKey = true := by
  intro x hx
  unfold announcements brokerUpdate at hx
  rw [List.mem_append] at hx
  rcases hx with hx | hx
  · split at hx
    · simp at hx; subst hx; rfl
    · simp at hx
  · split at hx
    · split at hx
      · simp at hx; subst hx; rfl
      · simp at hx
    · simp at hx

theorem filter_all {l m : List Output} (hl : l <+: m) (h : ∀ x ∈ m, x.isKey = true) : l.filter Output.isKey = l :=
  List.filter_eq_self.mpr fun x hx => h x (hl.subset hx)

/-- the key event of a round is unique -/
theorem KeyEvent.unique {a : App} {e : World} {p q : Nat} {w v : Reason} {k l : Bytes} (h : KeyEvent C a e p w k) (g : KeyEvent C a e q v l) :
    p = q ∧ w = v ∧ k = l := by
  cases h with
  | stale s s1 p h1 h2 =>
    cases g with
    | stale s' s1' q g1 g2 => rw [h1] at g1; cases g1; rw [h2] at g2; cases g2; exact ⟨rfl, rfl, rfl⟩
    | exchanged s' s1' t rx sock addr q m l g1 g2 => rw [h1] at g1; cases g1; rw [h2] at g2; cases g2
  | exchanged s s1 t rx sock addr p m k h1 h2 h3 h4 h5 =>
    cases g with
    | stale s' s1' q g1 g2 => rw [h1] at g1; cases g1; rw [h2] at g2; cases g2
    | exchanged s' s1' t' rx' sock' addr' q m' l g1 g2 g3 g4 g5 =>
      rw [h1] at g1; cases g1; rw [h2] at g2; cases g2; rw [h3] at g3; cases g3; rw [h4] at g4; cases g4
      rw [h5] at g5; cases g5; exact ⟨rfl, rfl, rfl⟩

/-- What a round does about keys. -/
inductive KeyRound (C : Crypto) (a : App) (e : World) (r : Res) : Prop
  | none : (∀ p w k, ¬ KeyEvent C a e p w k) → r.out.filter Output.isKey = [] → r.app.fs = a.fs → KeyRound C a e r
  | failed (p w k) : KeyEvent C a e p w k → (e.sendTo = false ∨ a.peers[p]? = none) → r.out.filter Output.isKey = [] → r.app.fs = a.fs →
      (a.peers[p]? = .none ∨ r.fate = .error) → KeyRound C a e r
  | output (p w k s peer ap r' a') : KeyEvent C a e p w k → a.site = .product s → s.peers[p]? = some peer → a.peers[p]? = some ap →
      k.length = 32 → a'.fs = a.fs → a'.brokers = a.brokers → OutSpec a' p ap (pidt C peer) w k e r' →
      r.out.filter Output.isKey = r'.out → r.app.fs = r'.app.fs → r.fate = r'.fate → KeyRound C a e r

theorem osk_len (L : C.Lawful) {s : Server} {p : Nat} {k : Bytes} (h : s.osk C p = .ok k) : k.length = 32 := by
  unfold osk at h
  split at h
  · cases h
  · unfold oskWith at h
    split at h
    · cases h
    · split at h
      · cases h
      · cases h; exact Crypto.hash_len L _ _ _

theorem poll_op (s : Server) (e : World) {c : PollResult} {s1 : Server} (h : s.poll e.now e.prnd = some (c, s1)) : s1 = s.step C (.poll e.now e.prnd) := by
  simp only [Server.step, h]

/-- poll reports events of existing peers -/
theorem poll_peer_lt {s s1 : Server} {now : Time} {r : PollRnd} {c : PollResult} (h : s.poll now r = some (c, s1)) {p : Nat} (hp : c.peer = some p) :
    p < s.peers.length := by
  have hs : c.saturated = true := by cases c <;> first | rfl | cases hp
  obtain ⟨h1, -⟩ := (poll_exact h).1 hs
  obtain ⟨q, peer, hq, hd⟩ := h1
  have hqp : q = p := by cases hd <;> (cases hp; rfl)
  exact hqp ▸ (List.getElem?_eq_some_iff.mp hq).1

/-- no call but `add_peer` changes the number of peers -/
theorem step_length (s : Server) (o : Op) (ho : ∀ psk pk v osk, o ≠ .addPeer psk pk v osk) : (s.step C o).peers.length = s.peers.length := by
  by_cases hp : ∃ now r, o = .poll now r
  · obtain ⟨now, r, rfl⟩ := hp
    simp only [Server.step]
    split
    · rename_i c s1 h
      unfold poll at h
      simp only [Option.map_eq_some_iff, Prod.mk.injEq] at h
      obtain ⟨⟨res, s2⟩, h1, rfl, rfl⟩ := h
      obtain ⟨t0, s0, e0, p0, -⟩ := poll_keys (now := now) (r := r) s
      rw [e0] at h1
      obtain ⟨hmem, hnd⟩ := peerPtrsOff_spec s s.pollOff
      obtain ⟨-, -, i3, -⟩ := pollPeers_cases _ (s := s0) (fun p hp => by rw [p0]; exact (hmem p).mp hp) hnd h1
      show s2.peers.length = _
      rw [i3, p0]
    · rfl
  · exact (step_pollOff C s o ho (fun now r h => hp ⟨now, r, h⟩)).2

theorem receive_noadd (e : World) (rx : Bytes) (sock : Nat) (addr : Addr) : ∀ psk pk v osk, e.receive rx sock addr ≠ .addPeer psk pk v osk := by
  intro psk pk v osk; unfold World.receive; split <;> (intro h; cases h)

/-- handling a message is one of the calls of the protocol server -/
theorem message_eq (a : App) (s : Server) (rx : Bytes) (sock : Nat) (addr : Addr) (e : World) :
    a.message C s rx sock addr e =
      match (e.receive rx sock addr).result C s with
      | .error .panic => ⟨.panic, { a with site := .product (s.step C (e.receive rx sock addr)) }, []⟩
      | .error _ => ⟨.next, { a with site := .product (s.step C (e.receive rx sock addr)) }, []⟩
      | .ok m => ({ a with site := .product (s.step C (e.receive rx sock addr)) } : App).received C m sock addr e := by
  unfold message World.receive
  by_cases h : e.load = true
  · simp only [h, if_true, Op.result, Server.step]; rfl
  · simp only [h, Op.result, Server.step]; rfl

theorem receive_WF {e : World} (he : e.WF C) (rx : Bytes) (sock : Nat) (addr : Addr) : (e.receive rx sock addr).WF C := by
  unfold World.receive; split <;> exact he.rnd

theorem receive_time (e : World) (rx : Bytes) (sock : Nat) (addr : Addr) :
    (e.receive rx sock addr).received = some rx ∧ (e.receive rx sock addr).time = some e.later := by
  unfold World.receive; split <;> exact ⟨rfl, rfl⟩

theorem step_key (L : C.Lawful) (a : App) (hr : ∀ s, a.site = .product s → Reachable C s) (e : World) (he : e.WF C) :
    KeyRound C a e (a.step C e) := by
  unfold step
  have plain : ∀ b : App, b.fs = a.fs → (∀ p w k, ¬ KeyEvent C a e p w k) → ∀ f, KeyRound C a e ⟨f, b, []⟩ :=
    fun b hb hne f => .none hne rfl hb
  cases hs : a.site with
  | void =>
    have hne : ∀ p w k, ¬ KeyEvent C a e p w k := by intro p w k h; cases h <;> simp_all
    dsimp only; split <;> exact plain a rfl hne _
  | builder b =>
    have hne : ∀ p w k, ¬ KeyEvent C a e p w k := by intro p w k h; cases h <;> simp_all
    dsimp only; split <;> exact plain a rfl hne _
  | product s =>
    dsimp only
    have hrs := hr s hs
    cases hpoll : s.poll e.now e.prnd with
    | none =>
      refine plain a rfl ?_ _
      intro p w k h; cases h <;> simp_all
    | some x =>
      obtain ⟨res, s1⟩ := x
      dsimp only
      have hr1 : Reachable C s1 := by rw [poll_op (C := C) s e hpoll]; exact .step _ _ hrs he.prnd
      have later1 : Later s s1 := by rw [poll_op (C := C) s e hpoll]; exact step_later L s _ he.prnd
      cases res with
      | deleteKey p =>
        dsimp only
        have hev : KeyEvent C a e p .stale e.stale := .stale s s1 p hs hpoll
        obtain ⟨peer, hpe⟩ : ∃ peer, s.peers[p]? = some peer := ⟨_, List.getElem?_eq_getElem (poll_peer_lt hpoll rfl)⟩
        obtain ⟨peer1, hpe1, hst, -⟩ := later1.peers p peer hpe
        cases hap : a.peers[p]? with
        | none =>
          have : ({ a with site := Site.product s1 } : App).deleteKey C p e = ⟨.panic, { a with site := .product s1 }, []⟩ := by
            simp [deleteKey, outputKey, Site.productRef, hpe1, hap, Res.andThen]
          rw [this]
          exact .failed p _ _ hev (.inr hap) rfl rfl (.inl hap)
        | some ap =>
          have h := outputKey_spec (C := C) { a with site := .product s1 } p .stale e.stale he.stale e s1 peer1 ap rfl hpe1 hap
          rw [hst.pidt] at h
          unfold deleteKey
          generalize hR : ({ a with site := Site.product s1 } : App).outputKey C p .stale e.stale e = R at h ⊢
          have hout := filter_all h.out (announcements_isKey _ _ _ _ _)
          refine .output p _ _ s peer ap R { a with site := .product s1 } hev hs hpe hap he.stale rfl rfl h ?_ ?_ ?_
          all_goals
            unfold Res.andThen
            cases hft : R.fate with
            | next =>
              dsimp only
              obtain ⟨fs, hfs⟩ := h.app
              rw [hfs]
              dsimp only
              first | (rw [hap]; simp only [List.append_nil]; exact hout) | rw [hap]
            | _ => first | exact hout | rfl | exact hft
      | sendInitiation p =>
        dsimp only
        obtain ⟨h, -⟩ := txMaybe_spec (C := C) { a with site := .product s1 } p (fun s => s.initiate C p e.later e.rnd0 e.tx) e s1 rfl
        refine .none ?_ (filter_none h.out) h.fs
        intro p w k h; cases h <;> simp_all
      | sendRetransmission p =>
        dsimp only
        obtain ⟨h, -⟩ := txMaybe_spec (C := C) { a with site := .product s1 } p (fun s => s.retransmit C p e.tx) e s1 rfl
        refine .none ?_ (filter_none h.out) h.fs
        intro p w k h; cases h <;> simp_all
      | sleep t =>
        dsimp only
        cases hio : e.io with
        | none => exact plain { a with site := .product s1 } rfl (by intro p w k h; cases h <;> simp_all) _
        | terminate => exact plain { a with site := .product s1 } rfl (by intro p w k h; cases h <;> simp_all) _
        | err => exact plain { a with site := .product s1 } rfl (by intro p w k h; cases h <;> simp_all) _
        | msg rx sock addr =>
          dsimp only
          rw [message_eq]
          have hev : ∀ p w k, KeyEvent C a e p w k → w = .exchanged ∧ ∃ m, (e.receive rx sock addr).result C s1 = .ok ⟨some p, m⟩ ∧
              (s1.step C (e.receive rx sock addr)).osk C p = .ok k := by
            intro p w k h
            cases h with
            | stale s' s1' q g1 g2 => rw [hs] at g1; cases g1; rw [hpoll] at g2; cases g2
            | exchanged s' s1' t' rx' sock' addr' q m' l g1 g2 g3 g4 g5 =>
              rw [hs] at g1; cases g1; rw [hpoll] at g2; cases g2; rw [hio] at g3; cases g3
              exact ⟨rfl, m', g4, g5⟩
          have later2 : Later s (s1.step C (e.receive rx sock addr)) := later1.trans (step_later L s1 _ (receive_WF he rx sock addr))
          cases hres : (e.receive rx sock addr).result C s1 with
          | error x =>
            have hne : ∀ p w k, ¬ KeyEvent C a e p w k := by
              intro p w k h
              obtain ⟨-, m, h1, -⟩ := hev p w k h
              rw [hres] at h1; cases h1
            cases x <;> exact .none hne rfl rfl
          | ok m =>
            dsimp only
            obtain ⟨ex, resp⟩ := m
            unfold received
            cases ex with
            | none =>
              have hne : ∀ p w k, ¬ KeyEvent C a e p w k := by
                intro p w k h
                obtain ⟨-, m, h1, -⟩ := hev p w k h
                rw [hres] at h1; cases h1
              cases resp with
              | none => exact .none hne rfl rfl
              | some msg => dsimp only; split <;> exact .none hne rfl rfl
            | some p =>
              obtain ⟨q, x, hq, hx, -, -, k, hk⟩ := exchange_session (C := C) (s := s1) (e.receive rx sock addr) rx (receive_time e rx sock addr).1 e.later
                (receive_time e rx sock addr).2 p resp hres
              have hE : KeyEvent C a e p .exchanged k := .exchanged s s1 t rx sock addr p resp k hs hpoll hio hres hk
              have hklen := osk_len L hk
              have hlt : p < s.peers.length := by
                have h := (List.getElem?_eq_some_iff.mp hq).1
                rw [step_length _ _ (receive_noadd e rx sock addr), poll_op (C := C) s e hpoll, step_length (C := C) s (.poll e.now e.prnd) (by intros; intro h; cases h)] at h
                exact h
              obtain ⟨peer, hpe⟩ : ∃ peer, s.peers[p]? = some peer := ⟨_, List.getElem?_eq_getElem hlt⟩
              obtain ⟨peer2, hpe2, hst, -⟩ := later2.peers p peer hpe
              have main : ∀ (o : List Output), (∀ x ∈ o, x.isKey = false) → KeyRound C a e
                  (Res.andThen ⟨.next, { a with site := .product (s1.step C (e.receive rx sock addr)) }, o⟩ fun a => a.exchanged C p sock addr e) := by
                intro o ho
                unfold Res.andThen exchanged
                dsimp only
                cases hap : a.peers[p]? with
                | none =>
                  refine .failed p _ _ hE (.inr hap) ?_ rfl (.inl hap)
                  simp only [List.append_nil]; exact filter_none ho
                | some ap =>
                  dsimp only [Site.productRef]
                  rw [hk]
                  dsimp only
                  have h := outputKey_spec (C := C) { a with site := .product (s1.step C (e.receive rx sock addr)), peers := a.peers.set p { ap with current := some (.bound sock addr) } }
                    p .exchanged k hklen e _ peer2 { ap with current := some (.bound sock addr) } rfl hpe2
                    (by simp [List.getElem?_set, (List.getElem?_eq_some_iff.mp hap).1])
                  rw [hst.pidt] at h
                  refine .output p _ _ s peer ap _ { a with site := .product (s1.step C (e.receive rx sock addr)), peers := a.peers.set p { ap with current := some (.bound sock addr) } }
                    hE hs hpe hap hklen rfl rfl ⟨h.app, h.out, h.files, h.noexit, h.nopanic, h.done, h.works⟩ ?_ rfl rfl
                  rw [List.filter_append, filter_none ho, List.nil_append]
                  exact filter_all h.out (announcements_isKey _ _ _ _ _)
              cases resp with
              | none => exact main [] (by simp)
              | some msg =>
                dsimp only
                split
                · exact main _ (by simp [Output.isKey])
                · rename_i hsend
                  exact .failed p _ _ hE (.inl (by simpa using hsend)) rfl rfl (.inr rfl)


/-! ### C51 -/

/-- **C51**, soundness: whatever fails or is received, a round outputs (announces, writes to a file, hands
to a broker) only the key of the key event of that round, only to the file and the broker configured for
the peer of that event, and with the right reason. Without a key event nothing is output. -/
theorem key_output_sound (L : C.Lawful) (a : App) (hr : ∀ s, a.site = .product s → Reachable C s) (e : World) (he : e.WF C) :
    (∀ x ∈ (a.step C e).out, x.isKey = true → ∃ p why k s peer ap, KeyEvent C a e p why k ∧ a.site = .product s ∧ s.peers[p]? = some peer ∧
      a.peers[p]? = some ap ∧ (a.step C e).out.filter Output.isKey <+: announcements ap a.brokers (pidt C peer) why k) ∧
    (∀ path, (a.step C e).app.fs path ≠ a.fs path → ∃ p why k ap, KeyEvent C a e p why k ∧ a.peers[p]? = some ap ∧ ap.outfile = some path ∧
      ∃ w m, (a.step C e).app.fs path = some ⟨w, m⟩ ∧ w <+: b64Enc k) := by
  have nokey : ∀ {l : List Output} {P : Prop}, l.filter Output.isKey = [] → ∀ x ∈ l, x.isKey = true → P := by
    intro l P h x hx hk
    rw [List.filter_eq_nil_iff] at h
    exact absurd hk (h x hx)
  cases step_key L a hr e he with
  | none h1 h2 h3 => exact ⟨nokey h2, fun path h => absurd (by rw [h3]) h⟩
  | failed p w k h1 h2 h3 h4 h5 => exact ⟨nokey h3, fun path h => absurd (by rw [h4]) h⟩
  | output p w k s peer ap r' a' h1 h2 h3 h4 h5 h6 h7 h8 h9 h10 h11 =>
    refine ⟨fun x hx hk => ⟨p, w, k, s, peer, ap, h1, h2, h3, h4, ?_⟩, fun path h => ?_⟩
    · rw [h9, ← h7]; exact h8.out
    · rw [h10, ← h6] at h
      obtain ⟨g1, g2⟩ := h8.files path h
      exact ⟨p, w, k, ap, h1, h4, g1, by rw [h10]; exact g2⟩

/-- **C51**, completeness: when there is a key event and the I/O succeeds, the key is written to the output
file of the peer (private to the user if the file is new), announced on standard output, and handed to
the peer's broker; no other file changes and the loop goes on. -/
theorem key_output_complete (L : C.Lawful) (a : App) (hr : ∀ s, a.site = .product s → Reachable C s) (e : World) (he : e.WF C)
    (hal : a.Aligned) (hb : a.BrokersPresent) (p : Nat) (why : Reason) (k : Bytes) (hk : KeyEvent C a e p why k)
    (hsend : e.sendTo = true) (hopen : e.openOk = true) (hw : (writeAll (b64Enc k) e.writes).1 = some (.ok ()))
    (hline : e.lineOk = true) (hpsk : e.pskOk = true) :
    (a.step C e).fate = .next ∧ k.length = 32 ∧
    ∃ s peer ap, a.site = .product s ∧ s.peers[p]? = some peer ∧ a.peers[p]? = some ap ∧
      (a.step C e).out.filter Output.isKey = announcements ap a.brokers (pidt C peer) why k ∧
      (∀ file, ap.outfile = some file → ∃ m, (a.step C e).app.fs file = some ⟨b64Enc k, m⟩ ∧ (a.fs file = none → m &&& 0o077 = 0)) ∧
      ∀ path, ap.outfile ≠ some path → (a.step C e).app.fs path = a.fs path := by
  cases step_key L a hr e he with
  | none h1 h2 h3 => exact absurd hk (h1 _ _ _)
  | failed q w l h1 h2 h3 h4 h5 =>
    obtain ⟨rfl, rfl, rfl⟩ := hk.unique h1
    rcases h2 with h2 | h2
    · rw [hsend] at h2; cases h2
    · exfalso
      have key : ∀ s, a.site = .product s → p < s.peers.length → False := by
        intro s hs hlt
        unfold Aligned at hal
        rw [hs] at hal
        have := List.getElem?_eq_none_iff.mp h2
        dsimp only at hal
        omega
      cases hk with
      | stale s s1 p g1 g2 => exact key s g1 (poll_peer_lt g2 rfl)
      | exchanged s s1 t rx sock addr p m k g1 g2 g3 g4 g5 =>
        refine key s g1 ?_
        obtain ⟨q, x, hq, -⟩ := exchange_session (C := C) (s := s1) (e.receive rx sock addr) rx (receive_time e rx sock addr).1 e.later
          (receive_time e rx sock addr).2 p m g4
        have h := (List.getElem?_eq_some_iff.mp hq).1
        rw [step_length _ _ (receive_noadd e rx sock addr), poll_op (C := C) s e g2, step_length (C := C) s (.poll e.now e.prnd) (by intros; intro h; cases h)] at h
        exact h
  | output q w l s peer ap r' a' h1 h2 h3 h4 h5 h6 h7 h8 h9 h10 h11 =>
    obtain ⟨rfl, rfl, rfl⟩ := hk.unique h1
    have hn : r'.fate = .next := h8.works (by rw [h7]; exact hb ap (List.mem_of_getElem? h4)) hopen hw hline hpsk
    obtain ⟨d1, d2⟩ := h8.done hn
    refine ⟨h11.trans hn, h5, s, peer, ap, h2, h3, h4, ?_, ?_, ?_⟩
    · rw [h9, d1, h7]
    · intro file hf; rw [h10, ← h6]; exact d2 file hf
    · intro path hne
      rw [h10, ← h6]
      exact Classical.byContradiction fun h => hne (h8.files path h).1

end App
end Verif
