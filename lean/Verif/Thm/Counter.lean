import Verif.Thm.UnderLoad
import Verif.Thm.App
/-
The numbers of the biscuits a server accepted stay behind its counter, so a server never gets into a state in which it refuses its own biscuits.
-/
namespace Verif
open HashDomain Server
variable {C : Crypto}

/-! ### Specification -/

/-- Among the answers a server gave in the calls `ops` there is a RespHello with the biscuit `ct`, made for additional data `ad` under the biscuit key `k`
that the server had then: it opens to the number the server was at. -/
def SentBiscuit (C : Crypto) (s0 : Server) (ops : List Op) (k ad ct : Bytes) : Prop :=
  ∃ pre o post x m e h pt, ops = pre ++ o :: post ∧ o.result C (s0.run C pre) = .ok ⟨x, some m⟩ ∧ m.head? = some 0x82 ∧
    Env.decode (payloadSize C .respHello) m = some e ∧
    let rh := RespHello.decode C e.payload
    rh.biscuitCt = ct ∧ (((s0.run C pre).step C o).biscuitKeys.get (biscuitKeyBit ct)).value = k ∧ biscuitAd C h s0.spkm rh.sidi rh.sidr = ad ∧
    C.xOpen k ad ct = some pt ∧ (Biscuit.decode pt).biscuitNo = (s0.run C pre).biscuitCtr

/-- The message `rx`, received after the calls `pre`, is an InitConf with a biscuit that opens although the server did not send it: a forgery. -/
def ForgedConf (C : Crypto) (s0 : Server) (pre : List Op) (rx : Bytes) : Prop :=
  rx.head? = some 0x83 ∧ ∃ e h pt, Env.decode (payloadSize C .initConf) rx = some e ∧
    let ic := InitConf.decode e.payload
    let s := s0.run C pre
    let k := (s.biscuitKeys.get (biscuitKeyBit ic.biscuitCt)).value
    let ad := biscuitAd C h s.spkm ic.sidi ic.sidr
    C.xOpen k ad ic.biscuitCt = some pt ∧ ¬ SentBiscuit C s0 pre k ad ic.biscuitCt

/-- No message received in the calls `ops` carries a forged biscuit. -/
def NoForgery (C : Crypto) (s0 : Server) (ops : List Op) : Prop :=
  ∀ pre o post rx, ops = pre ++ o :: post → o.received = some rx → ¬ ForgedConf C s0 pre rx

/-! ### What an InitConf does to the numbers -/

/-- the biscuit of `rx` opens to the number `no` -/
def OpensTo (C : Crypto) (s : Server) (rx : Bytes) (no : Bytes) : Prop :=
  ∃ e h pt, Env.decode (payloadSize C .initConf) rx = some e ∧
    let ic := InitConf.decode e.payload
    C.xOpen (s.biscuitKeys.get (biscuitKeyBit ic.biscuitCt)).value (biscuitAd C h s.spkm ic.sidi ic.sidr) ic.biscuitCt = some pt ∧ no = (Biscuit.decode pt).biscuitNo

theorem verify_opens {s s0 : Server} {e : Env} {rx : Bytes} (he : Env.decode (payloadSize C .initConf) rx = some e) (hg : SameGlobals s s0) {h p no c}
    (hv : s0.icrVerify C (InitConf.decode e.payload) h = .ok (p, no, c)) : OpensTo C s rx no := by
  obtain ⟨c0, peer, pt, o, hl, -⟩ := icrVerify_ok hv
  obtain ⟨pt', peer', hx, -, -, hno, -⟩ := loadBiscuit_ok hl
  rw [hg.biscuitKeys, hg.spkm] at hx
  exact ⟨e, h, pt', he, hx, hno⟩

def UsedOr (P : Bytes → Prop) (s s' : Server) : Prop :=
  ∀ (p : Nat) (q : Peer), s.peers[p]? = some q → ∃ q', s'.peers[p]? = some q' ∧ (q'.biscuitUsed = q.biscuitUsed ∨ P q'.biscuitUsed)

theorem UsedKept.or {P : Bytes → Prop} {s s' : Server} (h : UsedKept s s') : UsedOr P s s' := fun p q hq =>
  let ⟨q', h1, h2⟩ := h p q hq; ⟨q', h1, .inl h2⟩

theorem UsedOr.trans {P : Bytes → Prop} {a b c : Server} (h : UsedOr P a b) (g : UsedOr P b c) : UsedOr P a c := by
  intro p q hq
  obtain ⟨q1, h1, e1⟩ := h p q hq
  obtain ⟨q2, h2, e2⟩ := g p q1 h1
  refine ⟨q2, h2, ?_⟩
  rcases e2 with e2 | e2
  · rw [e2]; exact e1
  · exact .inr e2

theorem UsedOr.upd {P : Bytes → Prop} {s s' : Server} {i : Nat} {f : Peer → Peer} (hu : Upd s s' i f) (hf : ∀ q, (f q).biscuitUsed = q.biscuitUsed ∨ P (f q).biscuitUsed) : UsedOr P s s' := by
  intro p q hq
  have := hu p
  rw [hq] at this
  by_cases hp : p = i
  · rw [if_pos hp] at this; exact ⟨f q, this, hf q⟩
  · rw [if_neg hp] at this; exact ⟨q, this, .inl rfl⟩

theorem attempt_used {s s0 : Server} {e : Env} {rx : Bytes} (he : Env.decode (payloadSize C .initConf) rx = some e) {h : HashChoice}
    (hA : AttemptState C s (InitConf.decode e.payload) h s0) : UsedOr (OpensTo C s rx) s s0 := by
  rcases hA with rfl | ⟨-, p0, no0, c0, hv, rfl, -⟩
  · exact UsedKept.or (.same rfl)
  · exact .upd (burnt_get s p0 no0) (fun q => .inr (verify_opens he (.refl s) hv))

theorem conf_used (s : Server) (rx tx : Bytes) (now : Time) (r : HashChoice → Rnd) (h83 : rx.head? = some 0x83) :
    UsedOr (OpensTo C s rx) s (s.handleMsg C rx tx now r).2 := by
  rcases handleMsg_dispatch C s rx tx now r with ⟨x, hx, -⟩ | ⟨t, bs, out, hrx, hout, hd⟩
  · rw [hx]; exact UsedKept.or (.same rfl)
  have no : ∀ t' : MsgType, t' = t → t' ≠ .initConf → False := by
    rintro t' rfl hn
    rw [hrx] at h83
    simp only [List.head?_cons, Option.some.injEq] at h83
    cases t' <;> first | exact hn rfl | exact absurd h83 (by decide)
  rcases hd with ⟨rfl, -⟩ | ⟨rfl, -⟩ | ⟨rfl, e, he, hh⟩ | ⟨rfl, -⟩ | ⟨rfl, -⟩
  · exact (no _ rfl (by decide)).elim
  · exact (no _ rfl (by decide)).elim
  · rw [hh]
    rcases msgInitConf_cases C s e tx now with ⟨hx, -⟩ | ⟨out', hc, ⟨q, hq, ⟨x, hx, -⟩ | ⟨peer, k, hp, -, hck, hx⟩⟩ | ⟨hn, hf⟩⟩
    · rw [hx]; exact UsedKept.or (.same rfl)
    · rw [hx]; exact UsedKept.or (.same rfl)
    · rw [hx]; exact UsedKept.or (.same rfl)
    · rw [hf]
      rcases msgInitConfFresh_cases C s e out' now with ⟨h, s0, x, hA, hx, -⟩ | ⟨h, s0, q, no, c, peer, hA, R⟩
      · rw [hx]; exact attempt_used he hA
      · have ha := attempt_used he hA
        have ho := verify_opens he (AttemptState.facts hA).1 R.verify
        have hconf : ∀ ses, UsedOr (OpensTo C s rx) s (s0.confirmed q no ses) := fun ses => ha.trans (.upd (confirmed_get s0 q no ses) (fun _ => .inr ho))
        rcases R.result with ⟨⟨x, -, h1⟩, -⟩ | ⟨h1, -⟩ | ⟨h1, -⟩ | ⟨h1, -⟩ | ⟨s2, h1, hk, h2, h3⟩
        · rw [h1]; exact ha.trans (.upd (burnt_get s0 q no) (fun _ => .inr ho))
        · rw [h1]; exact hconf _
        · rw [h1]; exact hconf _
        · rw [h1]; exact hconf _
        · rw [h1]; exact (hconf _).trans (UsedKept.or (.upd (knownInsert_upd hk) (fun _ => rfl)))
  · exact (no _ rfl (by decide)).elim
  · exact (no _ rfl (by decide)).elim

/-- what one call can do to the numbers of the peers that are there -/
theorem step_used (s : Server) (o : Op) : UsedOr (fun no => ∃ rx, o.received = some rx ∧ rx.head? = some 0x83 ∧ OpensTo C s rx no) s (s.step C o) := by
  have weaken : ∀ {rx : Bytes} {s'}, o.received = some rx → rx.head? = some 0x83 → UsedOr (OpensTo C s rx) s s' →
      UsedOr (fun no => ∃ rx, o.received = some rx ∧ rx.head? = some 0x83 ∧ OpensTo C s rx no) s s' := by
    intro rx s' h1 h2 h p q hq
    obtain ⟨q', e1, e2⟩ := h p q hq
    exact ⟨q', e1, e2.imp id (fun e => ⟨rx, h1, h2, e⟩)⟩
  cases o with
  | addPeer psk pk v osk => exact UsedKept.or (fun p q hq => ⟨q, addPeer_keeps hq psk pk v osk, rfl⟩)
  | initiate p' t r x =>
    apply UsedKept.or
    simp only [Server.step]
    rcases initiate_cases C s p' t r x with ⟨y, hy⟩ | ⟨peer, ih, hs, e, hp, hini, hc, hfree, hm⟩
    · rw [hy]; exact .same rfl
    · rw [hm]
      exact (UsedKept.upd (hsPut_get s p' hs) (fun _ => rfl)).trans (.upd (modHs_get _ p' _) (fun _ => rfl))
  | handleMsg rx tx now r =>
    by_cases h83 : rx.head? = some 0x83
    · exact weaken rfl h83 (conf_used s rx tx now r h83)
    · exact UsedKept.or (handleMsg_used s rx tx now r h83)
  | handleMsgUnderLoad rx tx host now r =>
    by_cases h83 : rx.head? = some 0x83
    · refine weaken rfl h83 ?_
      simp only [Server.step]
      rcases underLoad_cases C s rx tx host now r with ⟨x, -, hx, -⟩ | ⟨-, hx⟩ | ⟨h81, -⟩
      · rw [hx]; exact UsedKept.or (.same rfl)
      · rw [hx]; exact conf_used s rx tx now r h83
      · rw [h83] at h81; exact absurd h81 (by decide)
    · exact UsedKept.or (underLoad_used s rx tx host now r h83)
  | poll t r =>
    apply UsedKept.or
    simp only [Server.step]
    cases hpo : s.poll t r with
    | none => exact .same rfl
    | some x =>
      obtain ⟨c, s'⟩ := x
      intro p q hq
      obtain ⟨q', hq', E⟩ := poll_effect hpo hq
      exact ⟨q', hq', E.static.2⟩
  | retransmit p' tx => exact UsedKept.or (.same (by simp only [Server.step, retransmit_state]))

/-- every biscuit number accepted so far is smaller than the counter -/
def Behind (s : Server) : Prop := ∀ (p : Nat) (q : Peer), s.peers[p]? = some q → leNat q.biscuitUsed < leNat s.biscuitCtr

theorem behind_step {s : Server} {o : Op} (h : Behind s) (hpos : 0 < leNat s.biscuitCtr) (hc : leNat s.biscuitCtr ≤ leNat (s.step C o).biscuitCtr)
    (hn : ∀ rx no, o.received = some rx → rx.head? = some 0x83 → OpensTo C s rx no → leNat no < leNat s.biscuitCtr) : Behind (s.step C o) := by
  intro p q' hq'
  cases hq : s.peers[p]? with
  | some q =>
    obtain ⟨q2, h2, e2⟩ := step_used (C := C) s o p q hq
    rw [hq'] at h2; cases h2
    rcases e2 with e2 | ⟨rx, h1, h2, h3⟩
    · rw [e2]; exact Nat.lt_of_lt_of_le (h p q hq) hc
    · exact Nat.lt_of_lt_of_le (hn rx _ h1 h2 h3) hc
  | none =>
    have hlt := (List.getElem?_eq_some_iff.mp hq').1
    have hge := List.getElem?_eq_none_iff.mp hq
    by_cases ho : ∃ psk pk v osk, o = .addPeer psk pk v osk
    · obtain ⟨psk, pk, v, osk, rfl⟩ := ho
      simp only [Server.step, addPeer] at hq' hlt hc ⊢
      split at hq'
      · rw [hq] at hq'; cases hq'
      · rename_i hi
        simp only [hi] at hc ⊢
        rw [List.getElem?_append_right hge] at hq'
        have : q' = freshPeer psk pk v osk := by
          rcases hk : p - s.peers.length with _ | n
          · rw [hk] at hq'; simpa using hq'.symm
          · rw [hk] at hq'; simp at hq'
        subst this
        have : leNat (freshPeer psk pk v osk).biscuitUsed = 0 := by simp only [freshPeer]; decide
        omega
    · have := App.step_length (C := C) s o (fun psk pk v osk he => ho ⟨psk, pk, v, osk, he⟩)
      omega

theorem run_snoc (C : Crypto) (s : Server) (ops : List Op) (o : Op) : s.run C (ops ++ [o]) = (s.run C ops).step C o := by
  rw [run_append]; rfl

theorem behind_run (L : C.Lawful) (sk pk b0 b1 c0 c1 kk : Bytes) (ops : List Op) (hw : ∀ o ∈ ops, o.WF C) (hlen : ops.length + 1 < 2 ^ 96)
    (hnf : NoForgery C (new sk pk b0 b1 c0 c1 kk) ops) : Behind ((new sk pk b0 b1 c0 c1 kk).run C ops) := by
  have h1 : leNat (new sk pk b0 b1 c0 c1 kk).biscuitCtr = 1 := by simp only [new]; decide
  generalize hs0 : new sk pk b0 b1 c0 c1 kk = s0 at *
  have hl0 : s0.biscuitCtr.length = 12 := by rw [← hs0]; rfl
  -- by induction from the end
  suffices H : ∀ n, ∀ pre post, ops = pre ++ post → pre.length = n → Behind (s0.run C pre) from H _ ops [] (by simp) rfl
  intro n
  induction n with
  | zero =>
    intro pre post hp hn
    have : pre = [] := List.length_eq_zero_iff.mp hn
    subst this
    intro p q hq
    rw [← hs0] at hq
    cases hq
  | succ n ih =>
    intro pre post hp hn
    obtain ⟨pre', o, rfl⟩ : ∃ pre' o, pre = pre' ++ [o] := by
      have hne : pre ≠ [] := by intro h; rw [h] at hn; cases hn
      exact ⟨pre.dropLast, pre.getLast hne, (List.dropLast_concat_getLast hne).symm⟩
    have hn' : pre'.length = n := by simpa using hn
    have hops : ops = pre' ++ o :: post := by rw [hp]; simp
    have hlp : pre'.length + 1 ≤ ops.length := by rw [hops]; simp
    have B := ih pre' (o :: post) hops hn'
    obtain ⟨l1, a1, u1⟩ := run_ctr_le (C := C) pre' s0 hl0 (by omega)
    obtain ⟨-, a2, -⟩ := step_ctr_le (C := C) (s0.run C pre') o l1 (by omega)
    rw [run_snoc]
    refine behind_step B (by omega) a2 ?_
    rintro rx no hrx h83 ⟨e, h, pt, he, hx, rfl⟩
    refine Classical.byContradiction fun hlt => hnf pre' o post rx hops hrx ⟨h83, e, h, pt, he, hx, ?_⟩
    rintro ⟨pre1, o1, post1, x, m, e1, h1', pt', hpre, hres, hm, -, -, hk, -, hopen, hno⟩
    rw [hx] at hopen
    cases hopen
    rw [hno] at hlt
    apply hlt
    -- the counter has moved on since
    have hlp1 : pre1.length + post1.length + 1 = pre'.length := by rw [hpre]; simp; omega
    have hw1 : o1.WF C := hw o1 (by rw [hops, hpre]; simp)
    obtain ⟨l2, -, u2⟩ := run_ctr_le (C := C) pre1 s0 hl0 (by omega)
    obtain ⟨e2, -⟩ := step_biscuit L hw1 l2 hres hm
    have hc := ConstantTime.increment_is_succ (s0.run C pre1).biscuitCtr
    rw [l2, Nat.mod_eq_of_lt (by omega), ← e2] at hc
    obtain ⟨-, a3, -⟩ := run_ctr_le (C := C) post1 ((s0.run C pre1).step C o1) hc.2 (by omega)
    have hrun : s0.run C pre' = ((s0.run C pre1).step C o1).run C post1 := by rw [hpre, run_append]; rfl
    rw [hrun]
    omega

/-! ### The claim -/

/-- What the definition above calls sent is sent: every RespHello of a server carries a biscuit that counts as sent from then on. -/
theorem answers_are_sent (L : C.Lawful) (sk pk b0 b1 c0 c1 kk : Bytes) (pre : List Op) (o : Op) (post : List Op) (hw : ∀ x ∈ pre, x.WF C) (ho : o.WF C) (hlen : pre.length + 1 < 2 ^ 96) {x : Option Nat} {m : Bytes}
    (hres : o.result C ((new sk pk b0 b1 c0 c1 kk).run C pre) = .ok ⟨x, some m⟩) (hm : m.head? = some 0x82) :
    ∃ e k ad, Env.decode (payloadSize C .respHello) m = some e ∧ SentBiscuit C (new sk pk b0 b1 c0 c1 kk) (pre ++ o :: post) k ad (RespHello.decode C e.payload).biscuitCt := by
  have h1 : leNat (new sk pk b0 b1 c0 c1 kk).biscuitCtr = 1 := by simp only [new]; decide
  obtain ⟨l1, -, -⟩ := run_ctr_le (C := C) pre (new sk pk b0 b1 c0 c1 kk) rfl (by omega)
  obtain ⟨-, b, ⟨e, peer, he, hp, hpid, hx⟩, hno⟩ := step_biscuit L ho l1 hres hm
  refine ⟨e, _, _, he, pre, o, post, x, m, e, peer.version.hash, b.encode, rfl, hres, hm, he, rfl, rfl, rfl, ?_, ?_⟩
  · rw [((run_later L pre hw _).trans (step_later L _ o ho)).spkm] at hx
    exact hx
  · rw [← hno]
    have h32 : b.pidi.length = 32 := by rw [hpid]; exact pidt_len L _
    have h12 : b.biscuitNo.length = 12 := by rw [hno]; exact l1
    simp only [Biscuit.decode, Biscuit.encode]
    rw [List.drop_left' h32, List.take_left' h12]

/-- **C111.** In every history of a server, of fewer than 2^96 - 1 calls, in which no message with a forged biscuit arrives: the number of every biscuit it
accepted from any peer is smaller than the number of the next biscuit it will issue. -/
theorem counter_ahead (L : C.Lawful) (sk pk b0 b1 c0 c1 kk : Bytes) (ops : List Op) (hw : ∀ o ∈ ops, o.WF C) (hlen : ops.length + 1 < 2 ^ 96) :
    (∀ (p : Nat) (q : Peer), ((new sk pk b0 b1 c0 c1 kk).run C ops).peers[p]? = some q →
      leNat q.biscuitUsed < leNat ((new sk pk b0 b1 c0 c1 kk).run C ops).biscuitCtr) ∨
    ∃ pre o post rx, ops = pre ++ o :: post ∧ o.received = some rx ∧ ForgedConf C (new sk pk b0 b1 c0 c1 kk) pre rx := by
  by_cases h : ∃ pre o post rx, ops = pre ++ o :: post ∧ o.received = some rx ∧ ForgedConf C (new sk pk b0 b1 c0 c1 kk) pre rx
  · exact .inr h
  · exact .inl (behind_run L sk pk b0 b1 c0 c1 kk ops hw hlen (fun pre o post rx h1 h2 h3 => h ⟨pre, o, post, rx, h1, h2, h3⟩))

/-- **C111.** Hence no history puts a responder into a state in which it refuses its own biscuits: after any calls without a forged biscuit the four
messages of a new exchange lead to a common key. -/
theorem exchange_after_any_history (L : C.Lawful) (K : C.KemTotal) (sk pk b0 b1 c0 c1 kk : Bytes) (ops : List Op) (hw : ∀ o ∈ ops, o.WF C) (hlen : ops.length + 1 < 2 ^ 96)
    (hnf : NoForgery C (new sk pk b0 b1 c0 c1 kk) ops) {A : Server} {pa pb : Nat} {eb ea : Peer} (M : Mutual C A ((new sk pk b0 b1 c0 c1 kk).run C ops) pa pb eb ea)
    {rA : Rnd} {rB : HashChoice → Rnd} (hrA : rA.WF C) (hrB : ∀ h, (rB h).WF C)
    (hsidA : A.index (.sid rA.sid) = none) (hnewA : (A.handshake pa).map (·.core.sidi) ≠ some rA.sid)
    (hsidB : ((new sk pk b0 b1 c0 c1 kk).run C ops).index (.sid (rB ea.version.hash).sid) = none)
    (t1 t2 t3 t4 t5 : Time) (r3 r4 r5 : HashChoice → Rnd) {x1 x2 x3 x4 x5 : Bytes} (h1 : FitsAll C x1) (h2 : FitsAll C x2) (h3 : FitsAll C x3) (h4 : FitsAll C x4) (h5 : FitsAll C x5) :
    ∃ m1 A1, A.initiate C pa t1 rA x1 = (.ok m1, A1) ∧
    (HelloUnambiguous C ((new sk pk b0 b1 c0 c1 kk).run C ops) ea.version m1 →
      ∃ m2 B1, ((new sk pk b0 b1 c0 c1 kk).run C ops).handleMsg C m1 x2 t2 rB = (.ok ⟨none, some m2⟩, B1) ∧
      ∃ m3 A2, A1.handleMsg C m2 x3 t3 r3 = (.ok ⟨some pa, some m3⟩, A2) ∧
      (ConfUnambiguous C B1 ea.version m3 →
        ∃ m4 B2, B1.handleMsg C m3 x4 t4 r4 = (.ok ⟨some pb, some m4⟩, B2) ∧
        ∃ A3, A2.handleMsg C m4 x5 t5 r5 = (.ok ⟨none, none⟩, A3) ∧
        A3.handshake pa = none ∧
        ∃ k, A2.osk C pa = .ok k ∧ A3.osk C pa = .ok k ∧ B2.osk C pb = .ok k)) := by
  have sz : ∀ {x : Bytes}, FitsAll C x → Env.size (RespHello.size C) ≤ x.length := fun {x} h => by
    have h1 := h .respHello
    have h2 : payloadSize C .respHello = RespHello.size C := rfl
    rw [h2] at h1; unfold Env.size; omega
  have sz1 : Env.size (InitHello.size C) ≤ x1.length := by
    have h := h1 .initHello
    have h2 : payloadSize C .initHello = InitHello.size C := rfl
    rw [h2] at h; unfold Env.size; omega
  exact key_agreement L K M hrA hrB hsidA hnewA hsidB (behind_run L sk pk b0 b1 c0 c1 kk ops hw hlen hnf pb ea M.atB) t1 t2 t3 t4 t5 r3 r4 r5 sz1 (sz h2) (sz h3) (sz h4) (sz h5)

/-! ### A case -/
namespace Ex.Counter

/-- a responder that gets a peer, answers it and accepts its confirmation -/
def ops : List Op := [.addPeer (some (toLE 32 77)) skA .v03 .wireguardPsk, .handleMsg (m1 .v03) buf 1 (fun _ => rnd 20), .handleMsg (m3 .v03) buf 3 (fun _ => rnd 40)]

def conf : InitConf := InitConf.decode (Env.view InitConf.size (m3 .v03)).payload
/-- the calls before the last one -/
def before : List Op := [.addPeer (some (toLE 32 77)) skA .v03 .wireguardPsk, .handleMsg (m1 .v03) buf 1 (fun _ => rnd 20)]
def key : Bytes := (((fresh skB).run Toy.crypto before).biscuitKeys.get (biscuitKeyBit conf.biscuitCt)).value
def ad (h : HashChoice) : Bytes := biscuitAd Toy.crypto h ((fresh skB).run Toy.crypto before).spkm conf.sidi conf.sidr

theorem wf : ∀ o ∈ ops, o.WF Toy.crypto := by
  intro o ho
  simp only [ops, List.mem_cons, List.not_mem_nil, or_false] at ho
  rcases ho with rfl | rfl | rfl
  · intro k hk; cases hk; exact toLE_length _ _
  · exact fun _ => rnd_WF 20
  · exact fun _ => rnd_WF 40

theorem sent_before : SentBiscuit Toy.crypto (fresh skB) before key (ad .shake) conf.biscuitCt := by
  refine ⟨ops.take 1, .handleMsg (m1 .v03) buf 1 (fun _ => rnd 20), [], none, m2 .v03, Env.view (RespHello.size Toy.crypto) (m2 .v03), .shake,
    (Toy.crypto.xOpen key (ad .shake) conf.biscuitCt).getD [], rfl, ?_, ?_, ?_, ?_, ?_, ?_, ?_, ?_⟩
  all_goals decide +kernel

/-- The hypotheses of the theorems above are met by a history in which a biscuit was issued and accepted. -/
example : NoForgery Toy.crypto (fresh skB) ops ∧ ((fresh skB).run Toy.crypto ops).peers.map (·.biscuitUsed) = [toLE 12 1] := by
  refine ⟨?_, by decide +kernel⟩
  intro pre o post rx hops hrx
  have hops' := hops
  rcases pre with _ | ⟨a, _ | ⟨b, _ | ⟨c, _ | ⟨d, pre⟩⟩⟩⟩ <;> simp only [ops, List.nil_append, List.cons_append, List.cons.injEq] at hops'
  · obtain ⟨rfl, -⟩ := hops'; cases hrx
  · obtain ⟨rfl, rfl, -⟩ := hops'
    have : rx = m1 .v03 := (Option.some.inj hrx).symm
    rw [this]
    rintro ⟨h, -⟩
    exact absurd h (by decide +kernel)
  · obtain ⟨rfl, rfl, rfl, -⟩ := hops'
    have : rx = m3 .v03 := (Option.some.inj hrx).symm
    rw [this]
    rintro ⟨-, e, h, pt, he, hx, hn⟩
    have : Env.decode (payloadSize Toy.crypto .initConf) (m3 .v03) = some (Env.view InitConf.size (m3 .v03)) := by decide +kernel
    have he2 : e = Env.view InitConf.size (m3 .v03) := Option.some.inj (he.symm.trans this)
    rw [he2] at hx hn
    cases h with
    | shake => exact hn sent_before
    | blake =>
      have h2 : Toy.crypto.xOpen key (ad .blake) conf.biscuitCt = none := by decide +kernel
      have h3 : Toy.crypto.xOpen key (ad .blake) conf.biscuitCt = some pt := hx
      rw [h2] at h3; cases h3
  · exact absurd hops'.2.2.2 (by simp)
  · exact absurd hops'.2.2.2 (by simp)

end Ex.Counter
end Verif
