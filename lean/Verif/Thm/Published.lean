import Verif.Thm.EndToEnd
import Verif.Thm.Effects
/-
C134: what a daemon has put out for a peer is the key its protocol server holds.
-/
namespace Verif
open HashDomain Server FileIO

section
variable {C : Crypto}

theorem osk_of_get {s s' : Server} {q : Nat} (h : s'.peers[q]? = s.peers[q]?) : s'.osk C q = s.osk C q := by
  unfold osk oskWith; rw [h]

theorem osk_of_key {s s' : Server} {q : Nat} {x x' : Peer} (h : s.peers[q]? = some x) (h' : s'.peers[q]? = some x') (hv : x'.version = x.version) (ho : x'.osk = x.osk)
    (hs : x'.session.map (fun y => (y.ck, y.hc)) = x.session.map (fun y => (y.ck, y.hc))) : s'.osk C q = s.osk C q := by
  unfold osk oskWith; rw [h, h']
  simp only [hv, ho]
  cases hx : x.session <;> cases hx' : x'.session <;> rw [hx, hx'] at hs <;> simp at hs ⊢
  rw [hs.1, hs.2]

theorem modHs_osk (s : Server) (p i : Nat) (f : IniHs → IniHs) : (s.modHs p f).osk C i = s.osk C i := by
  have hx := modHs_get s p f i
  by_cases hi : i = p
  · rw [if_pos hi] at hx
    cases hp : s.peers[i]? with
    | none => rw [hp] at hx; exact osk_of_get (hx.trans hp.symm)
    | some q => rw [hp] at hx; exact osk_of_key hp hx rfl rfl rfl
  · rw [if_neg hi] at hx; exact osk_of_get hx

/-- Which keys a received message changes: that of the peer it is reported for; or, if it is refused, that of the peer
whose RespHello or InitConf was authentic up to its seal, the hash function or a session id in use. -/
theorem msg_osk (L : C.Lawful) {s s' : Server} (hr : Reachable C s) {rx tx : Bytes} {now : Time}
    {r : HashChoice → Rnd} {res : Except Err MsgResult} (h : s.handleMsg C rx tx now r = (res, s')) (i : Nat) :
    s'.osk C i = s.osk C i ∨ (∃ m, res = .ok ⟨some i, m⟩) ∨
    (∃ peer, s.peers[i]? = some peer ∧ (RespHelloFor C s rx i peer true ∨ InitConfFor C s rx i peer true)) ∨
    (rx.head? = some 0x83 ∧ OpensTwice C s rx) := by
  have hch := handleMsg_changes L hr h
  by_cases hsame : s'.peers[i]? = s.peers[i]?
  · exact .inl (osk_of_get hsame)
  rcases hch with g | ⟨p, peer, hp, hoth, hc⟩ | g
  · exact absurd (by rw [g]) hsame
  swap
  · exact .inr (.inr (.inr g))
  by_cases hi : i = p
  swap
  · exact absurd (hoth i hi) hsame
  subst hi
  rcases handleMsg_dispatch C s rx tx now r with ⟨x, hx, -⟩ | ⟨t, bs, out, hrx, hout, hd⟩
  · rw [hx] at h; cases h; exact .inl rfl
  rcases hd with ⟨rfl, e, he, hh⟩ | ⟨rfl, e, he, hh⟩ | ⟨rfl, e, he, hh⟩ | ⟨rfl, e, he, hh⟩ | ⟨rfl, cr, he, hh⟩
  · exfalso
    rcases hc with g | g | g | g <;> (have := g.1; rw [hrx] at this; exact absurd this (by simp only [List.head?_cons]; decide))
  · have hR : RespHelloFor C s rx i peer (rejected res) := by
      rcases hc with g | g | g | g
      · exact g
      all_goals (have := g.1; rw [hrx] at this; exact absurd this (by simp only [List.head?_cons]; decide))
    rw [hh] at h
    rcases msgRespHello_cases C s e tx now (r .shake) with ⟨y, hx⟩ | ⟨out', p, c, ic, peer', hs, hc', R⟩
    · rw [hx] at h; cases h; exact .inl rfl
    rw [h] at R
    rcases R.result with ⟨h1, -⟩ | ⟨h1, -⟩ | ⟨h1, hck⟩
    · cases h1; exact .inr (.inr (.inl ⟨peer, hp, .inl hR⟩))
    · cases h1; exact .inr (.inr (.inl ⟨peer, hp, .inl hR⟩))
    · cases h1
      by_cases hip : i = p
      · subst hip; exact .inr (.inl ⟨_, rfl⟩)
      · left; apply osk_of_get; rw [modHs_get, if_neg hip, accepted_get, if_neg hip]
  · have hR : InitConfFor C s rx i peer (rejected res) := by
      rcases hc with g | g | g | g
      swap
      · exact g
      all_goals (have := g.1; rw [hrx] at this; exact absurd this (by simp only [List.head?_cons]; decide))
    rw [hh] at h
    cases res with
    | error x => exact .inr (.inr (.inl ⟨peer, hp, .inr hR⟩))
    | ok m =>
      rcases msgInitConf_cases C s e tx now with ⟨hx, -⟩ | ⟨out', hc, ⟨q, hq, ⟨x, hx, -⟩ | ⟨peer, k, -, -, -, hx⟩⟩ | ⟨hn, hf⟩⟩
      · rw [hx] at h; cases h
      · rw [hx] at h; cases h
      · rw [hx] at h; cases h; exact absurd rfl hsame
      · rw [hf] at h
        rcases msgInitConfFresh_cases C s e out' now with ⟨h', s0, x, hA, hx, -⟩ | ⟨h', s0, q, no, c, peer0, hA, R⟩
        · rw [hx] at h; cases h
        · rw [h] at R
          rcases R.result with ⟨⟨x, -, h1⟩, -⟩ | ⟨h1, -⟩ | ⟨h1, -⟩ | ⟨h1, -⟩ | ⟨s2, h1, hk, h2, h3⟩
          · cases h1
          · cases h1
          · cases h1
          · cases h1
          · cases h1
            by_cases hiq : i = q
            · subst hiq; exact .inr (.inl ⟨_, rfl⟩)
            · rcases hA with rfl | ⟨rfl, p0, no0, c0, hv, rfl, -⟩
              · exact absurd (by rw [knownInsert_upd hk i, if_neg hiq, confirmed_get, if_neg hiq]) hsame
              · right; right; right
                have hg := burnt_globals s p0 no0
                refine ⟨by rw [hrx]; rfl, e, he, ?_⟩
                have h1 := icrVerify_opens hv
                have h2 := icrVerify_opens R.verify
                rw [hg.biscuitKeys, hg.spkm] at h2
                intro ic hh
                cases hh
                · exact h1
                · exact h2
  · left
    rw [hh] at h
    rcases handleRespConf_cases C s e with ⟨x, hx⟩ | ⟨p, peer', ses, hl, hp', hses, hn, hck, hct, hres⟩
    · rw [hx] at h; cases h; rfl
    by_cases hip : i = p
    swap
    · refine absurd ?_ hsame
      rcases hres with ⟨h1, -⟩ | ⟨h1, -⟩
      · rw [h1] at h; cases h; rw [modPeer_get, if_neg hip]
      · rw [h1] at h; cases h; rw [hsTake_get, if_neg hip, modPeer_get, if_neg hip]
    subst hip
    rcases hres with ⟨h1, -⟩ | ⟨h1, -⟩
    · rw [h1] at h; cases h
      exact osk_of_key hp' (x' := { peer' with session := some { ses with txnt := leNat (EmptyData.decode e.payload).ctr } }) (by rw [modPeer_get, if_pos rfl, hp']; rfl) rfl rfl (by rw [hses]; rfl)
    · rw [h1] at h; cases h
      exact osk_of_key hp' (x' := { peer' with session := some { ses with txnt := leNat (EmptyData.decode e.payload).ctr }, handshake := none }) (by rw [hsTake_get, if_pos rfl, modPeer_get, if_pos rfl, hp']; rfl) rfl rfl (by rw [hses]; rfl)
  · left
    rw [hh] at h
    rcases handleCookieReply_cases C s cr now with ⟨x, hx⟩ | ⟨p, peer', hs, mac, hl, hp', hhs, hm, hres⟩
    · rw [hx] at h; cases h; rfl
    by_cases hip : i = p
    swap
    · refine absurd ?_ hsame
      rcases hres with ⟨-, h1⟩ | ⟨v, -, h1⟩
      · rw [h1] at h; cases h; rw [modHs_get, if_neg hip]
      · rw [h1] at h; cases h; rw [modHs_get, if_neg hip]
    subst hip
    rcases hres with ⟨-, h1⟩ | ⟨v, -, h1⟩
    · rw [h1] at h; cases h
      exact modHs_osk s i i _
    · rw [h1] at h; cases h
      exact modHs_osk s i i _

/-- the same for a message received under load, and for the other calls -/
theorem receive_osk (L : C.Lawful) {s : Server} (hr : Reachable C s) {o : Op} {rx : Bytes} (hrx : o.received = some rx) (i : Nat) :
    (s.step C o).osk C i = s.osk C i ∨ (∃ m, o.result C s = .ok ⟨some i, m⟩) ∨
    (∃ peer, s.peers[i]? = some peer ∧ (RespHelloFor C s rx i peer true ∨ InitConfFor C s rx i peer true)) ∨
    (rx.head? = some 0x83 ∧ OpensTwice C s rx) := by
  cases o with
  | addPeer psk pk v osk => cases hrx
  | initiate p now r tx => cases hrx
  | handleMsg rx tx now r => cases hrx; exact msg_osk L hr rfl i
  | handleMsgUnderLoad rx' tx host now r =>
    cases hrx
    show (s.handleMsgUnderLoad C rx tx host now r).2.osk C i = _ ∨ (∃ m, (s.handleMsgUnderLoad C rx tx host now r).1 = _) ∨ _
    have hch := underLoad_changes L hr (rx := rx) (tx := tx) (host := host) (now := now) (r := r)
    dsimp only at hch
    rcases underLoad_cases C s rx tx host now r with ⟨x, -, hx, -⟩ | ⟨-, hx⟩ | ⟨h81, -⟩
    · rw [hx]; exact .inl rfl
    · rw [hx]; exact msg_osk L hr rfl i
    · left
      rcases hch with g | ⟨p, peer, -, -, g | g | g | g⟩ | g
      · exact osk_of_get (by rw [g])
      all_goals (have := g.1; rw [h81] at this; cases this)
  | poll now r => cases hrx
  | retransmit p tx => cases hrx

theorem initiate_osk (s : Server) (p : Nat) (now : Time) (r : Rnd) (tx : Bytes) (i : Nat) : (s.initiate C p now r tx).2.osk C i = s.osk C i := by
  rcases initiate_cases C s p now r tx with ⟨x, hx⟩ | ⟨peer, ih, hs, e, hp, -, -, -, h⟩
  · rw [hx]
  · dsimp only at h
    rw [h]
    show (modHs _ _ _).osk C i = _
    rw [modHs_osk]
    by_cases hi : i = p
    · subst hi
      exact osk_of_key (x' := { peer with initReq := false, handshake := some hs }) hp (by rw [hsPut_get, if_pos rfl, hp]; rfl) rfl rfl rfl
    · exact osk_of_get (by rw [hsPut_get, if_neg hi])

theorem poll_osk {s s' : Server} {now : Time} {r : PollRnd} {c : PollResult} (h : s.poll now r = some (c, s')) {i : Nat} (hi : i < s.peers.length) :
    (c ≠ .deleteKey i ∧ s'.osk C i = s.osk C i) ∨ (c = .deleteKey i ∧ ∀ k, s'.osk C i ≠ .ok k) := by
  obtain ⟨q, hq⟩ : ∃ q, s.peers[i]? = some q := ⟨_, List.getElem?_eq_getElem hi⟩
  obtain ⟨q', hq', E⟩ := poll_effect h hq
  by_cases hc : c = .deleteKey i
  · right
    refine ⟨hc, fun k hk => ?_⟩
    have hn : q'.session = none := by
      rcases E.session with g | ⟨-, g⟩
      · obtain ⟨⟨p2, q2, hq2, hd⟩, hall⟩ := (poll_exact h).1 (by rw [hc]; rfl)
        rw [hc] at hd
        cases hd with
        | deleteKey x hx hl =>
          rw [hq] at hq2; cases hq2
          exact absurd rfl ((hall (.deleteKey i)).mp ⟨i, q', hq', .deleteKey x (g.trans hx) hl⟩ |>.2 <| hc ▸ ·)
      · exact g
    unfold osk oskWith at hk
    rw [hq'] at hk
    simp only [hn] at hk
    cases hk
  · left
    refine ⟨hc, osk_of_key hq hq' E.static.1.2.2.1 E.static.1.2.2.2 ?_⟩
    rcases E.session with g | ⟨g, -⟩
    · rw [g]
    · exact absurd g hc

end

namespace App
variable {C : Crypto}

/-! ### Specification -/

/-- The last key that was handed to broker `b` for the WireGuard peer `cfg`. -/
def lastPsk (b : Nat) (cfg : String) (out : List Output) : Option Bytes :=
  (out.filterMap fun x => match x with | .psk b' c' k => if b' = b ∧ c' = cfg then some k else none | _ => none).getLast?

/-- What the daemon, now in state `a`, has put out for the peer with the destinations `ap` is the key `k`: the output file of the peer holds it, and
it is the last key handed to the peer's broker. -/
structure Shows (a : App) (out : List Output) (ap : AppPeer) (k : Bytes) : Prop where
  file : ∀ f, ap.outfile = some f → ∃ mode, a.fs f = some ⟨b64Enc k, mode⟩
  psk : ∀ ptr cfg br, ap.broker = some (ptr, cfg) → a.brokers.store.lookup ptr = some br → lastPsk br.name cfg out = some k

/-- Nothing has been put out for that peer since state `a0`. -/
structure ShowsNothing (a0 a : App) (out : List Output) (ap : AppPeer) : Prop where
  file : ∀ f, ap.outfile = some f → a.fs f = a0.fs f
  psk : ∀ ptr cfg br, ap.broker = some (ptr, cfg) → a.brokers.store.lookup ptr = some br → lastPsk br.name cfg out = none

/-- No two peers share an output file or a WireGuard peer. -/
structure Separate (a : App) : Prop where
  file : ∀ (i j : Nat) ap aq, a.peers[i]? = some ap → a.peers[j]? = some aq → i ≠ j → ∀ f, ap.outfile = some f → aq.outfile ≠ some f
  psk : ∀ (i j : Nat) ap aq, a.peers[i]? = some ap → a.peers[j]? = some aq → i ≠ j → ∀ ptr ptr' cfg br br', ap.broker = some (ptr, cfg) →
    aq.broker = some (ptr', cfg) → a.brokers.store.lookup ptr = some br → a.brokers.store.lookup ptr' = some br' → br.name ≠ br'.name

/-- State and outputs of a daemon after the rounds `es`. -/
def played (C : Crypto) (a : App) (es : List World) : App × List Output :=
  es.foldl (fun x e => ((x.1.step C e).app, x.2 ++ (x.1.step C e).out)) (a, [])

/-- The message received in this round, if any, is not an authentic RespHello or InitConf that is refused (because its seal was tampered with, it was
made with the other hash function, or its session id is in use by another peer), nor one whose biscuit opens in two ways. -/
def Untampered (C : Crypto) (a : App) (e : World) : Prop :=
  ∀ t s1 rx sock addr, Polled a e (.sleep t) s1 → e.io = .msg rx sock addr →
    (∀ i peer, s1.peers[i]? = some peer → ¬ RespHelloFor C s1 rx i peer true ∧ ¬ InitConfFor C s1 rx i peer true) ∧
    ¬ (rx.head? = some 0x83 ∧ OpensTwice C s1 rx)

/-- … in every round. -/
def AllUntampered (C : Crypto) : App → List World → Prop
  | _, [] => True
  | a, e :: es => Untampered C a e ∧ AllUntampered C (a.step C e).app es

/-! ### One round -/

theorem deleteKey_site (a : App) (p : Nat) (e : World) : (a.deleteKey C p e).app.site = a.site := by
  unfold deleteKey Res.andThen
  obtain ⟨fs, hfs⟩ := outputKey_app (C := C) a p .stale e.stale e
  split
  · dsimp only
    rw [hfs]
    split <;> rfl
  · rw [hfs]

/-- What a round does to the keys of the protocol server. -/
theorem round_key (L : C.Lawful) {a : App} {s : Server} (hs : a.site = .product s) (hr : Reachable C s) {e : World} (he : e.WF C) (hu : Untampered C a e)
    {i : Nat} (hi : i < s.peers.length) : ∃ s', (a.step C e).app.site = .product s' ∧ s'.peers.length = s.peers.length ∧
    ((∃ k, KeyEvent C a e i .exchanged k ∧ s'.osk C i = .ok k) ∨ (KeyEvent C a e i .stale e.stale ∧ ∀ k, s'.osk C i ≠ .ok k) ∨
      ((∀ w k, ¬ KeyEvent C a e i w k) ∧ s'.osk C i = s.osk C i)) := by
  have noev : ∀ {c s1}, s.poll e.now e.prnd = some (c, s1) → c.saturated = true → c ≠ .deleteKey i → ∀ w k, ¬ KeyEvent C a e i w k := by
    intro c s1 hp hsat hne w k hk
    cases hk with
    | stale s' s1' q g1 g2 => rw [hs] at g1; cases g1; rw [hp] at g2; cases g2; exact hne rfl
    | exchanged s' s1' t' rx' sock' addr' q m' l g1 g2 => rw [hs] at g1; cases g1; rw [hp] at g2; cases g2; cases hsat
  unfold step
  rw [hs]
  dsimp only
  cases hpoll : s.poll e.now e.prnd with
  | none =>
    refine ⟨s, hs, rfl, .inr (.inr ⟨?_, rfl⟩)⟩
    intro w k hk; cases hk <;> simp_all
  | some x =>
    obtain ⟨res, s1⟩ := x
    have hop := poll_op (C := C) s e hpoll
    have hr1 : Reachable C s1 := by rw [hop]; exact .step _ _ hr he.prnd
    have hl1 : s1.peers.length = s.peers.length := by rw [hop]; exact step_length (C := C) s _ (by intros; intro h; cases h)
    have hpo := poll_osk (C := C) hpoll hi
    cases res with
    | deleteKey p =>
      refine ⟨s1, deleteKey_site _ p e, hl1, ?_⟩
      rcases hpo with ⟨h1, h2⟩ | ⟨h1, h2⟩
      · exact .inr (.inr ⟨noev hpoll rfl h1, h2⟩)
      · cases h1; exact .inr (.inl ⟨.stale s s1 i hs hpoll, h2⟩)
    | sendInitiation p =>
      have h2 : s1.osk C i = s.osk C i := by rcases hpo with ⟨-, h⟩ | ⟨h, -⟩ <;> [exact h; cases h]
      obtain ⟨-, -, h | h⟩ := txMaybe_spec (C := C) { a with site := .product s1 } p (fun s => s.initiate C p e.later e.rnd0 e.tx) e s1 rfl
      · exact ⟨s1, h, hl1, .inr (.inr ⟨noev hpoll rfl (by intro h; cases h), h2⟩)⟩
      · refine ⟨_, h, ?_, .inr (.inr ⟨noev hpoll rfl (by intro h; cases h), (initiate_osk s1 p _ _ _ i).trans h2⟩)⟩
        exact (step_length (C := C) s1 (.initiate p e.later e.rnd0 e.tx) (by intros; intro h; cases h)).trans hl1
    | sendRetransmission p =>
      have h2 : s1.osk C i = s.osk C i := by rcases hpo with ⟨-, h⟩ | ⟨h, -⟩ <;> [exact h; cases h]
      obtain ⟨-, -, h⟩ := txMaybe_spec (C := C) { a with site := .product s1 } p (fun s => s.retransmit C p e.tx) e s1 rfl
      rw [retransmit_state] at h
      exact ⟨s1, h.elim id id, hl1, .inr (.inr ⟨noev hpoll rfl (by intro h; cases h), h2⟩)⟩
    | sleep t =>
      have h2 : s1.osk C i = s.osk C i := by rcases hpo with ⟨-, h⟩ | ⟨h, -⟩ <;> [exact h; cases h]
      dsimp only
      cases hio : e.io with
      | none => exact ⟨s1, rfl, hl1, .inr (.inr ⟨by intro w k hk; cases hk <;> simp_all, h2⟩)⟩
      | terminate => exact ⟨s1, rfl, hl1, .inr (.inr ⟨by intro w k hk; cases hk <;> simp_all, h2⟩)⟩
      | err => exact ⟨s1, rfl, hl1, .inr (.inr ⟨by intro w k hk; cases hk <;> simp_all, h2⟩)⟩
      | msg rx sock addr =>
        dsimp only
        obtain ⟨hu1, hu2⟩ := hu t s1 rx sock addr ⟨s, hs, hpoll⟩ hio
        refine ⟨s1.step C (e.receive rx sock addr), ?_, ?_, ?_⟩
        · rw [message_eq]
          cases (e.receive rx sock addr).result C s1 with
          | error x => cases x <;> rfl
          | ok m => exact received_site _ m sock addr e
        · exact (step_length _ _ (receive_noadd e rx sock addr)).trans hl1
        · have hev : ∀ w k, KeyEvent C a e i w k → ∃ m, (e.receive rx sock addr).result C s1 = .ok ⟨some i, m⟩ := by
            intro w k h
            cases h with
            | stale s' s1' q g1 g2 => rw [hs] at g1; cases g1; rw [hpoll] at g2; cases g2
            | exchanged s' s1' t' rx' sock' addr' q m' l g1 g2 g3 g4 g5 =>
              rw [hs] at g1; cases g1; rw [hpoll] at g2; cases g2; rw [hio] at g3; cases g3
              exact ⟨m', g4⟩
          by_cases hex : ∃ m, (e.receive rx sock addr).result C s1 = .ok ⟨some i, m⟩
          · left
            obtain ⟨m, hm⟩ := hex
            obtain ⟨q, x, hq, hx, -, -, k, hk⟩ := exchange_session (C := C) (s := s1) (e.receive rx sock addr) rx (receive_time e rx sock addr).1 e.later
              (receive_time e rx sock addr).2 i m hm
            exact ⟨k, .exchanged s s1 t rx sock addr i m k hs hpoll hio hm hk, hk⟩
          · right; right
            refine ⟨fun w k hk => hex (hev w k hk), ?_⟩
            rcases receive_osk L hr1 (receive_time e rx sock addr).1 i with g | g | ⟨peer, hp, g⟩ | g
            · exact g.trans h2
            · exact absurd g hex
            · obtain ⟨n1, n2⟩ := hu1 i peer hp
              exact absurd g (fun g => g.elim n1 n2)
            · exact absurd g hu2

theorem lastPsk_append (b : Nat) (cfg : String) (x y : List Output) : lastPsk b cfg (x ++ y) = (lastPsk b cfg y).or (lastPsk b cfg x) := by
  unfold lastPsk
  rw [List.filterMap_append, List.getLast?_append]

theorem lastPsk_filter (b : Nat) (cfg : String) (y : List Output) : lastPsk b cfg (y.filter Output.isKey) = lastPsk b cfg y := by
  unfold lastPsk
  congr 1
  induction y with
  | nil => rfl
  | cons x y ih =>
    cases x with
    | datagram so ad m => simp only [List.filterMap_cons]; rw [← ih]; rfl
    | line pid f w => simp only [List.filterMap_cons]; rw [← ih]; rfl
    | psk b' c' k =>
      show List.filterMap _ (.psk b' c' k :: y.filter Output.isKey) = _
      rw [List.filterMap_cons, List.filterMap_cons, ih]

theorem lastPsk_announce (b : Nat) (cfg : String) (ap : AppPeer) (br : Brokers) (pid : Bytes) (w : Reason) (k : Bytes) :
    lastPsk b cfg (announcements ap br pid w k) = lastPsk b cfg (brokerUpdate ap br k) := by
  unfold announcements
  rw [lastPsk_append]
  cases ap.outfile <;> cases lastPsk b cfg (brokerUpdate ap br k) <;> rfl

/-- What a round puts out for the peer of its key event, and for the others. -/
theorem round_shows (L : C.Lawful) {a : App} (R : Ready C a) (S : Separate a) {e : World} (he : e.WF C) (W : Works e) {i : Nat} {ap : AppPeer} (hap : a.peers[i]? = some ap)
    (out : List Output) :
    (∀ w k, KeyEvent C a e i w k → Shows (a.step C e).app (out ++ (a.step C e).out) ap k) ∧
    ((∀ w k, ¬ KeyEvent C a e i w k) → (∀ f, ap.outfile = some f → (a.step C e).app.fs f = a.fs f) ∧
      ∀ ptr cfg br, ap.broker = some (ptr, cfg) → a.brokers.store.lookup ptr = some br → lastPsk br.name cfg (out ++ (a.step C e).out) = lastPsk br.name cfg out) := by
  have hB : (a.step C e).app.brokers = a.brokers := (step_frame a e he).1.brokers
  have hlen : ∀ w p k, KeyEvent C a e p w k → k.length = 32 := by
    intro w p k h
    cases h with
    | stale => exact he.stale
    | exchanged s s1 t rx sock addr p m k g1 g2 g3 g4 g5 => exact osk_len L g5
  have full := fun p w k (h : KeyEvent C a e p w k) => key_output_complete L a R.reach e he R.aligned R.brokers p w k h W.send W.open_ (W.write k (hlen w p k h)) W.line W.psk
  constructor
  · intro w k hk
    obtain ⟨-, -, s, peer, ap', -, -, hap', hout, hfile, -⟩ := full i w k hk
    rw [hap] at hap'; cases hap'
    refine ⟨fun f hf => (hfile f hf).imp fun _ h => h.1, fun ptr cfg br hb hl => ?_⟩
    rw [hB] at hl
    rw [lastPsk_append, ← lastPsk_filter _ _ (a.step C e).out, hout, lastPsk_announce]
    have : brokerUpdate ap a.brokers k = [.psk br.name cfg k] := by unfold brokerUpdate; rw [hb]; dsimp only; rw [hl]
    rw [this]
    simp [lastPsk]
  · intro hno
    by_cases hany : ∃ p w k, KeyEvent C a e p w k
    · obtain ⟨p, w, k, hk⟩ := hany
      have hpi : i ≠ p := fun h => hno w k (h ▸ hk)
      obtain ⟨-, -, s, peer, ap', -, -, hap', hout, -, hoth⟩ := full p w k hk
      refine ⟨fun f hf => hoth f (S.file i p ap ap' hap hap' hpi f hf), fun ptr cfg br hb hl => ?_⟩
      rw [lastPsk_append, ← lastPsk_filter _ _ (a.step C e).out, hout, lastPsk_announce]
      have : lastPsk br.name cfg (brokerUpdate ap' a.brokers k) = none := by
        unfold brokerUpdate
        cases hb' : ap'.broker with
        | none => rfl
        | some y =>
          obtain ⟨ptr', cfg'⟩ := y
          dsimp only
          cases hl' : a.brokers.store.lookup ptr' with
          | none => rfl
          | some br' =>
            by_cases hc : cfg' = cfg
            · subst hc
              have := S.psk i p ap ap' hap hap' hpi ptr ptr' cfg' br br' hb hb' hl hl'
              simp [lastPsk, Ne.symm this]
            · simp [lastPsk, hc]
      rw [this]; rfl
    · cases step_key L a R.reach e he with
      | none h1 h2 h3 =>
        refine ⟨fun f _ => by rw [h3], fun ptr cfg br _ _ => ?_⟩
        rw [lastPsk_append, ← lastPsk_filter _ _ (a.step C e).out, h2]; rfl
      | failed p w k h => exact absurd ⟨p, w, k, h⟩ hany
      | output p w k s peer ap r' a' h => exact absurd ⟨p, w, k, h⟩ hany

theorem Separate.step {a : App} (S : Separate a) (e : World) (he : e.WF C) : Separate (a.step C e).app := by
  obtain ⟨F, -⟩ := step_frame a e he
  have back : ∀ (i : Nat) ap', (a.step C e).app.peers[i]? = some ap' → ∃ ap, a.peers[i]? = some ap ∧ ap'.outfile = ap.outfile ∧ ap'.broker = ap.broker := by
    intro i ap' h
    have hlt : i < a.peers.length := by rw [← F.len]; exact (List.getElem?_eq_some_iff.mp h).1
    obtain ⟨ap'', g1, g2, g3⟩ := F.peers i _ (List.getElem?_eq_getElem hlt)
    rw [h] at g1; cases g1
    exact ⟨_, List.getElem?_eq_getElem hlt, g2, g3⟩
  constructor
  · intro i j ap aq hi hj hij f hf
    obtain ⟨bp, b1, b2, -⟩ := back i ap hi
    obtain ⟨bq, c1, c2, -⟩ := back j aq hj
    rw [c2]; exact S.file i j bp bq b1 c1 hij f (b2 ▸ hf)
  · intro i j ap aq hi hj hij ptr ptr' cfg br br' h1 h2 h3 h4
    obtain ⟨bp, b1, -, b3⟩ := back i ap hi
    obtain ⟨bq, c1, -, c3⟩ := back j aq hj
    rw [F.brokers] at h3 h4
    exact S.psk i j bp bq b1 c1 hij ptr ptr' cfg br br' (b3 ▸ h1) (c3 ▸ h2) h3 h4

/-! ### All rounds -/

/-- The invariant. -/
def PubInv (C : Crypto) (all : List World) (a0 a : App) (out : List Output) : Prop :=
  ∀ (s : Server) (i : Nat) (ap : AppPeer), a.site = .product s → a.peers[i]? = some ap →
    (∀ k, s.osk C i = .ok k → Shows a out ap k) ∧
    ((∀ k, s.osk C i ≠ .ok k) → ShowsNothing a0 a out ap ∨ ∃ e ∈ all, Shows a out ap e.stale)

theorem Shows.dest {a : App} {out : List Output} {ap ap' : AppPeer} {k : Bytes} (h : Shows a out ap k) (h1 : ap'.outfile = ap.outfile) (h2 : ap'.broker = ap.broker) :
    Shows a out ap' k := ⟨fun f hf => h.file f (h1 ▸ hf), fun ptr cfg br hb => h.psk ptr cfg br (h2 ▸ hb)⟩

theorem PubInv.step (L : C.Lawful) {all : List World} {a0 a : App} {out : List Output} (I : PubInv C all a0 a out) (R : Ready C a) (S : Separate a) {e : World}
    (hmem : e ∈ all) (he : e.WF C) (W : Works e) (U : Untampered C a e) : PubInv C all a0 (a.step C e).app (out ++ (a.step C e).out) := by
  intro s' i ap' hs' hap'
  obtain ⟨F, -, hb, hv⟩ := step_frame (C := C) a e he
  have hlt : i < a.peers.length := by rw [← F.len]; exact (List.getElem?_eq_some_iff.mp hap').1
  obtain ⟨ap, hap⟩ : ∃ ap, a.peers[i]? = some ap := ⟨_, List.getElem?_eq_getElem hlt⟩
  obtain ⟨ap'', g1, g2, g3⟩ := F.peers i ap hap
  rw [hap'] at g1; cases g1
  cases hsite : a.site with
  | builder b => rw [hb b hsite] at hs'; cases hs'
  | void => rw [hv hsite] at hs'; cases hs'
  | product s =>
    have hal := R.aligned
    unfold Aligned at hal
    rw [hsite] at hal
    have hal' : s.peers.length = a.peers.length := hal
    obtain ⟨s2, h2, -, hk⟩ := round_key L hsite (R.reach s hsite) he U (i := i) (by omega)
    rw [hs'] at h2; cases h2
    obtain ⟨out1, out2⟩ := round_shows L R S he W hap out
    obtain ⟨I1, I2⟩ := I s i ap hsite hap
    rcases hk with ⟨k, hev, hk⟩ | ⟨hev, hk⟩ | ⟨hno, hk⟩
    · refine ⟨fun k' hk' => ?_, fun h => absurd hk (h k)⟩
      rw [hk] at hk'; cases hk'
      exact (out1 _ _ hev).dest g2 g3
    · exact ⟨fun k h => absurd h (hk k), fun _ => .inr ⟨e, hmem, (out1 _ _ hev).dest g2 g3⟩⟩
    · obtain ⟨o1, o2⟩ := out2 hno
      have keep : ∀ k, Shows a out ap k → Shows (a.step C e).app (out ++ (a.step C e).out) ap' k := by
        intro k h
        refine Shows.dest (ap := ap) ⟨fun f hf => ?_, fun ptr cfg br hb hl => ?_⟩ g2 g3
        · rw [o1 f hf]; exact h.file f hf
        · rw [F.brokers] at hl
          rw [o2 ptr cfg br hb hl]; exact h.psk ptr cfg br hb hl
      rw [hk]
      refine ⟨fun k h => keep k (I1 k h), fun h => ?_⟩
      rcases I2 h with h | ⟨e', he', h⟩
      · left
        refine ⟨fun f hf => ?_, fun ptr cfg br hb hl => ?_⟩
        · rw [g2] at hf; rw [o1 f hf]; exact h.file f hf
        · rw [F.brokers] at hl; rw [g3] at hb
          rw [o2 ptr cfg br hb hl]; exact h.psk ptr cfg br hb hl
      · exact .inr ⟨e', he', keep _ h⟩

theorem PubInv.run (L : C.Lawful) {all : List World} {a0 : App} : ∀ (es : List World) {a : App} {out : List Output}, PubInv C all a0 a out → Ready C a → Separate a →
    (∀ e ∈ es, e ∈ all ∧ e.WF C ∧ Works e) → AllUntampered C a es →
    let x := es.foldl (fun x e => ((x.1.step C e).app, x.2 ++ (x.1.step C e).out)) (a, out)
    PubInv C all a0 x.1 x.2
  | [], _, _, I, _, _, _, _ => I
  | e :: es, a, out, I, R, S, h, U => by
    obtain ⟨h1, h2, h3⟩ := h e (List.mem_cons_self ..)
    exact PubInv.run L es (I.step L R S h1 h2 h3 U.1) (R.step e h2) (S.step e h2) (fun e' he' => h e' (List.mem_cons_of_mem _ he')) U.2

/-- **C134**, the part that holds. A daemon that starts without sessions runs for any number of rounds in which its I/O works and no authentic
RespHello or InitConf arrives that is refused. Then, for every peer: if the protocol server holds a key for the peer, that key is what the
daemon has put out for it (in the file, and last to the broker); if it holds none, then the daemon has put out nothing, or a random key. -/
theorem published_key_is_current_partial (L : C.Lawful) {a0 : App} (R : Ready C a0) (S : Separate a0) (h0 : ∀ s i k, a0.site = .product s → s.osk C i ≠ .ok k)
    (es : List World) (hw : ∀ e ∈ es, e.WF C ∧ Works e) (hu : AllUntampered C a0 es) :
    let a := (played C a0 es).1
    let out := (played C a0 es).2
    ∀ (s : Server) (i : Nat) (ap : AppPeer), a.site = .product s → a.peers[i]? = some ap →
      (∀ k, s.osk C i = .ok k → Shows a out ap k) ∧
      ((∀ k, s.osk C i ≠ .ok k) → ShowsNothing a0 a out ap ∨ ∃ e ∈ es, Shows a out ap e.stale) := by
  refine PubInv.run L (all := es) (a0 := a0) es ?_ R S (fun e he => ⟨he, hw e he⟩) hu
  intro s i ap hs hap
  exact ⟨fun k hk => absurd hk (h0 s i k hs), fun _ => .inl ⟨fun f _ => rfl, fun ptr cfg br _ _ => rfl⟩⟩

theorem played_three (a : App) (x y z : World) : (played C a [x, y, z]).1 = (((a.step C x).app.step C y).app.step C z).app := rfl

namespace Ex
open Verif.Ex

/-- one bit of the seal of a message is flipped on the way -/
def tamper (m : Bytes) : Bytes := m.mapIdx (fun i b => if i + 20 = m.length then b ^^^ 1 else b)
/-- the InitConf, which the initiator sent when it put out its key, arrives with a broken seal, then again as it was sent -/
def t4 : World := w 4 40 (.msg (tamper (firstMsg r3)) 0 addr)
def t5 : World := w 5 41 (.msg (firstMsg r3) 0 addr)
def b4 : Res := r2.app.step Toy.crypto t4
def b5 : Res := b4.app.step Toy.crypto t5

end Ex

open Ex Verif.Ex in
/-- **C134 is false as stated.** The initiator has put out the key `k`. Someone who knows no secret breaks the seal of the InitConf; the genuine InitConf
arrives afterwards. The responder's protocol server holds the key `k` for the peer, but the daemon never puts it out: all its I/O works, no round fails, the
output file does not exist and the broker was told nothing. -/
theorem tampered_message_hides_key : ∃ k, (r3.app.fs "key").map (·.content) = some (b64Enc k) ∧
    (played Toy.crypto dB [e2, t4, t5]).1 = b5.app ∧ (∀ e ∈ [e2, t4, t5], e.WF Toy.crypto ∧ Works e) ∧
    r2.fate = .next ∧ b4.fate = .next ∧ b5.fate = .next ∧
    (srv b5.app).osk Toy.crypto 0 = .ok k ∧ b5.app.fs "key" = none ∧ lastPsk 7 "wg0" (played Toy.crypto dB [e2, t4, t5]).2 = none := by
  have h1 : (match (srv b5.app).osk Toy.crypto 0 with | .ok k => some (b64Enc k) | .error _ => none) = (r3.app.fs "key").map (·.content) := by decide +kernel
  have h2 : ((r3.app.fs "key").map (·.content)).isSome = true := by decide +kernel
  have h3 : (b5.app.fs "key").isNone = true := by decide +kernel
  have hp : (played Toy.crypto dB [e2, t4, t5]).1 = b5.app := by unfold b5 b4 r2; exact played_three _ _ _ _
  cases hk : (srv b5.app).osk Toy.crypto 0 with
  | error x => rw [hk] at h1; dsimp only at h1; rw [← h1] at h2; cases h2
  | ok k =>
    rw [hk] at h1
    refine ⟨k, h1.symm, hp, ?_, by decide +kernel, by decide +kernel, by decide +kernel, rfl, Option.isNone_iff_eq_none.mp h3, by decide +kernel⟩
    intro e he
    simp only [List.mem_cons, List.not_mem_nil, or_false] at he
    rcases he with rfl | rfl | rfl <;> exact ⟨w_WF _ _ _, w_works _ _ _⟩

open Ex Verif.Ex in
/-- C134: the hypotheses of `published_key_is_current_partial` are met by the initiator in the exchange of C97, and it holds a key afterwards -/
example : Ready Toy.crypto dA ∧ Separate dA ∧ (∀ s i k, dA.site = .product s → s.osk Toy.crypto i ≠ .ok k) ∧ (∀ e ∈ [e1, e3], e.WF Toy.crypto ∧ Works e) ∧
    AllUntampered Toy.crypto dA [e1, e3] ∧ (∃ k, (srv (played Toy.crypto dA [e1, e3]).1).osk Toy.crypto 0 = .ok k) := by
  refine ⟨dA_ready, ⟨?_, ?_⟩, ?_, ?_, ⟨?_, ?_, trivial⟩, ?_⟩
  · intro i j ap aq hi hj hij
    have hi := (List.getElem?_eq_some_iff.mp hi).1
    have hj := (List.getElem?_eq_some_iff.mp hj).1
    simp only [dA, List.length_singleton] at hi hj
    omega
  · intro i j ap aq hi hj hij
    have hi := (List.getElem?_eq_some_iff.mp hi).1
    have hj := (List.getElem?_eq_some_iff.mp hj).1
    simp only [dA, List.length_singleton] at hi hj
    omega
  · intro s i k hs hk
    cases hs
    by_cases hi : i = 0
    · subst hi
      have : ((A0 .v03).osk Toy.crypto 0).toOption.isNone = true := by decide +kernel
      rw [hk] at this; cases this
    · have hl : (A0 .v03).peers.length = 1 := by decide +kernel
      unfold osk at hk
      rw [List.getElem?_eq_none (by omega)] at hk
      cases hk
  · intro e he
    simp only [List.mem_cons, List.not_mem_nil, or_false] at he
    rcases he with rfl | rfl <;> exact ⟨w_WF _ _ _, w_works _ _ _⟩
  · intro t s1 rx sock ad _ hio; cases hio
  · intro t s1 rx sock ad hP hio
    have hio2 : IoEvent.msg (firstMsg r2) 0 addrB = .msg rx sock ad := hio
    rw [IoEvent.msg.injEq] at hio2
    obtain ⟨hio2, -, -⟩ := hio2
    rw [← hio2]
    have hp1 : isProduct r1.app = true := by decide +kernel
    obtain ⟨s, hs, hpo⟩ := hP
    have hs1 : s1 = polled r1.app 3 := by
      have hs' : r1.app.site = .product s := by unfold r1; exact hs
      rw [site_of hp1, Site.product.injEq] at hs'
      rw [← hs'] at hpo
      unfold polled
      have : (srv r1.app).poll 3 Verif.Ex.prnd = some (.sleep t, s1) := hpo
      unfold Server.step; dsimp only; rw [this]
    rw [hs1]
    have hlen : (polled r1.app 3).peers.length = 1 := by decide +kernel
    have hhead : (firstMsg r2).head? = some 0x82 := by decide +kernel
    refine ⟨fun i peer hp => ⟨?_, fun h => ?_⟩, fun h => ?_⟩
    · have hi : i = 0 := by have := (List.getElem?_eq_some_iff.mp hp).1; omega
      subst hi
      rintro ⟨-, e, hs, he, -, -, hbad⟩
      rcases hbad rfl with h | ⟨q, hq, hc⟩
      · refine h ?_
        have hpe : peer = peerOf (polled r1.app 3) := by unfold peerOf; rw [hp]; rfl
        have hck : ((Env.decode (payloadSize Toy.crypto .respHello) (firstMsg r2)).map fun e => decide (e.mac = macOf Toy.crypto (peerOf (polled r1.app 3)).version.hash (polled r1.app 3).spkm e)) = some true := by decide +kernel
        rw [he] at hck
        rw [hpe]
        exact of_decide_eq_true (Option.some.inj hck)
      · have hnone : (polled r1.app 3).peers[q]? = none := List.getElem?_eq_none (by omega)
        rcases hc with hc | hc
        · unfold Server.session at hc; rw [hnone] at hc; cases hc
        · unfold Server.handshake at hc; rw [hnone] at hc; cases hc
    · have := h.1; rw [hhead] at this; cases this
    · have := h.1; rw [hhead] at this; cases this
  · have h : ((srv (played Toy.crypto dA [e1, e3]).1).osk Toy.crypto 0).toOption.isSome = true := by decide +kernel
    cases hk : (srv (played Toy.crypto dA [e1, e3]).1).osk Toy.crypto 0 with
    | ok k => exact ⟨k, rfl⟩
    | error x => rw [hk] at h; cases h

end App
end Verif
