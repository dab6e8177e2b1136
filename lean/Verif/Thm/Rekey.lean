import Verif.Thm.Lifecycle
/-
C19, C20: rekeying and retransmission.
-/
namespace Verif
open HashDomain Server

section
variable {C : Crypto}

/-! ### What a call other than `initiate` and `poll` does to the timers of a peer -/

/-- the request flag stays, no handshake begins, and a session is old or created at `now` -/
structure Keeps (now : Time) (q q' : Peer) : Prop where
  initReq : q'.initReq = q.initReq
  handshake : ∀ h', q'.handshake = some h' → ∃ h, q.handshake = some h ∧ h'.createdAt = h.createdAt
  session : ∀ x', q'.session = some x' → x'.createdAt = now ∨ ∃ x, q.session = some x ∧ x'.createdAt = x.createdAt

theorem Keeps.refl (now : Time) (q : Peer) : Keeps now q q := ⟨rfl, fun h hh => ⟨h, hh, rfl⟩, fun x hx => Or.inr ⟨x, hx, rfl⟩⟩
theorem Keeps.trans {now : Time} {a b c : Peer} (h : Keeps now a b) (g : Keeps now b c) : Keeps now a c := by
  refine ⟨g.initReq.trans h.initReq, fun x hx => ?_, fun x hx => ?_⟩
  · obtain ⟨y, hy, e⟩ := g.handshake x hx
    obtain ⟨z, hz, e'⟩ := h.handshake y hy
    exact ⟨z, hz, e.trans e'⟩
  · rcases g.session x hx with e | ⟨y, hy, e⟩
    · exact Or.inl e
    · rcases h.session y hy with e' | ⟨z, hz, e'⟩
      · exact Or.inl (e.trans e')
      · exact Or.inr ⟨z, hz, e.trans e'⟩

def KeepsAll (now : Time) (s s' : Server) : Prop := ∀ (p : Nat) (q : Peer), s.peers[p]? = some q → ∃ q', s'.peers[p]? = some q' ∧ Keeps now q q'

theorem KeepsAll.same {now : Time} {s s' : Server} (h : s'.peers = s.peers) : KeepsAll now s s' :=
  fun p q hq => ⟨q, h ▸ hq, Keeps.refl _ _⟩
theorem KeepsAll.trans {now : Time} {a b c : Server} (h : KeepsAll now a b) (g : KeepsAll now b c) : KeepsAll now a c := by
  intro p q hq
  obtain ⟨q1, h1, k1⟩ := h p q hq
  obtain ⟨q2, h2, k2⟩ := g p q1 h1
  exact ⟨q2, h2, k1.trans k2⟩
theorem KeepsAll.upd {now : Time} {s s' : Server} {p : Nat} {f : Peer → Peer} (h : Upd s s' p f) (hf : ∀ q, Keeps now q (f q)) : KeepsAll now s s' := by
  intro i q hq
  have := h i
  by_cases hi : i = p
  · rw [if_pos hi, hq] at this; exact ⟨_, this, hf q⟩
  · rw [if_neg hi, hq] at this; exact ⟨_, this, Keeps.refl _ _⟩

theorem keeps_hs (now : Time) (f : IniHs → IniHs) (hf : ∀ h, (f h).createdAt = h.createdAt) (q : Peer) :
    Keeps now q { q with handshake := q.handshake.map f } := by
  refine ⟨rfl, fun h' hh => ?_, fun x hx => Or.inr ⟨x, hx, rfl⟩⟩
  simp only [Option.map_eq_some_iff] at hh
  obtain ⟨h, hh, rfl⟩ := hh
  exact ⟨h, hh, hf h⟩

theorem keeps_dropSes (now : Time) (u : Peer → Bytes) (q : Peer) : Keeps now q { q with biscuitUsed := u q, session := none } :=
  ⟨rfl, fun h hh => ⟨h, hh, rfl⟩, fun x hx => nomatch hx⟩

theorem sessTake_keeps (now : Time) (s : Server) (p : Nat) : KeepsAll now s (s.sessTake p) :=
  .upd (sessTake_get s p) (fun q => ⟨rfl, fun h hh => ⟨h, hh, rfl⟩, fun x hx => nomatch hx⟩)
theorem hsTake_keeps (now : Time) (s : Server) (p : Nat) : KeepsAll now s (s.hsTake p) :=
  .upd (hsTake_get s p) (fun q => ⟨rfl, fun h hh => (nomatch hh), fun x hx => Or.inr ⟨x, hx, rfl⟩⟩)
theorem burnt_keeps (now : Time) (s : Server) (p : Nat) (no : Bytes) : KeepsAll now s (s.burnt p no) :=
  .upd (burnt_get s p no) (fun q => keeps_dropSes now (fun _ => no) q)
theorem accepted_keeps (now : Time) (s : Server) (p : Nat) (c : Core) (h : HashChoice) :
    KeepsAll now s (s.accepted p (c.enterLive C now .initiator h)) := by
  refine .upd (accepted_get s p _) (fun q => ?_)
  have := keeps_hs now (fun hs => { hs with core := hs.core.erase, next := .respConf }) (fun _ => rfl) q
  exact ⟨this.initReq, this.handshake, fun x hx => by cases hx; exact Or.inl rfl⟩
theorem confirmed_keeps (now : Time) (s : Server) (p : Nat) (no : Bytes) (c : Core) (h : HashChoice) :
    KeepsAll now s (s.confirmed p no (c.enterLive C now .responder h)) :=
  .upd (confirmed_get s p no _) (fun q => ⟨rfl, fun h hh => (nomatch hh), fun x hx => by cases hx; exact Or.inl rfl⟩)

theorem handleMsg_keeps (s : Server) (rx tx : Bytes) (now : Time) (r : HashChoice → Rnd) :
    KeepsAll now s (s.handleMsg C rx tx now r).2 := by
  rcases handleMsg_dispatch C s rx tx now r with ⟨x, hx, -⟩ | ⟨t, bs, out, hrx, hout, hd⟩
  · rw [hx]; exact .same rfl
  rcases hd with ⟨rfl, e, he, hh⟩ | ⟨rfl, e, he, hh⟩ | ⟨rfl, e, he, hh⟩ | ⟨rfl, e, he, hh⟩ | ⟨rfl, cr, he, hh⟩
  · rw [hh]
    rcases msgInitHello_cases C s e out now r with ⟨y, hx⟩ | ⟨h', q, c, peer, rh, R⟩
    · rw [hx]; exact .same rfl
    · rcases R.result with ⟨h1, -⟩ | ⟨h1, -⟩ | ⟨h1, -⟩ <;> (rw [h1]; exact .same (issued_peers _ _ _))
  · rw [hh]
    rcases msgRespHello_cases C s e tx now (r .shake) with ⟨y, hx⟩ | ⟨out', p, c, ic, peer, hs, hc, R⟩
    · rw [hx]; exact .same rfl
    · rcases R.result with ⟨h1, -⟩ | ⟨h1, -⟩ | ⟨h1, -⟩
      · rw [h1]; exact sessTake_keeps now s p
      · rw [h1]; exact accepted_keeps now s p c _
      · rw [h1]
        exact (accepted_keeps now s p c _).trans (.upd (modHs_get _ p _) (keeps_hs now _ (fun _ => rfl)))
  · rw [hh]
    rcases msgInitConf_cases C s e tx now with ⟨hx, -⟩ | ⟨out', hc, ⟨q, hq, ⟨x, hx, -⟩ | ⟨peer, k, -, -, -, hx⟩⟩ | ⟨hn, hf⟩⟩
    · rw [hx]; exact .same rfl
    · rw [hx]; exact .same rfl
    · rw [hx]; exact .same rfl
    · rw [hf]
      have hatt : ∀ {h' s0}, AttemptState C s (InitConf.decode e.payload) h' s0 → KeepsAll now s s0 := by
        rintro h' s0 (rfl | ⟨-, p0, no0, c0, hv, rfl, -⟩)
        · exact .same rfl
        · exact burnt_keeps now s p0 no0
      rcases msgInitConfFresh_cases C s e out' now with ⟨h', s0, x, hA, hx, -⟩ | ⟨h', s0, q, no, c, peer0, hA, R⟩
      · rw [hx]; exact hatt hA
      · refine (hatt hA).trans ?_
        rcases R.result with ⟨⟨x, -, h1⟩, -⟩ | ⟨h1, -⟩ | ⟨h1, -⟩ | ⟨h1, -⟩ | ⟨s2, h1, hk, -⟩
        · rw [h1]; exact burnt_keeps now s0 q no
        · rw [h1]; exact confirmed_keeps now s0 q no c _
        · rw [h1]; exact confirmed_keeps now s0 q no c _
        · rw [h1]; exact confirmed_keeps now s0 q no c _
        · rw [h1]
          exact (confirmed_keeps now s0 q no c _).trans (.upd (knownInsert_upd hk)
            (fun q => ⟨rfl, fun h hh => ⟨h, hh, rfl⟩, fun x hx => Or.inr ⟨x, hx, rfl⟩⟩))
  · rw [hh]
    rcases handleRespConf_cases C s e with ⟨x, hx⟩ | ⟨p, peer, ses, hl, hp, hses, hn, hck, hct, hres⟩
    · rw [hx]; exact .same rfl
    · have h1 : KeepsAll now s (s.modPeer p (fun q => { q with session := some { ses with txnt := leNat (EmptyData.decode e.payload).ctr } })) := by
        intro i q hq
        rw [modPeer_get]
        by_cases hi : i = p
        · subst hi
          rw [if_pos rfl, hq]
          rw [hp] at hq; cases hq
          refine ⟨_, rfl, rfl, fun h hh => ⟨h, hh, rfl⟩, fun x hx => Or.inr ⟨ses, hses, ?_⟩⟩
          cases hx; rfl
        · rw [if_neg hi]; exact ⟨q, hq, Keeps.refl _ _⟩
      rcases hres with ⟨h2, -⟩ | ⟨h2, -⟩
      · rw [h2]; exact h1
      · rw [h2]; exact h1.trans (hsTake_keeps now _ p)
  · rw [hh]
    rcases handleCookieReply_cases C s cr now with ⟨x, hx⟩ | ⟨p, peer, hs, mac, hl, hp, hhs, hm, hres⟩
    · rw [hx]; exact .same rfl
    · rcases hres with ⟨-, h1⟩ | ⟨v, -, h1⟩
      · rw [h1]; exact .upd (modHs_get _ p _) (keeps_hs now _ (fun _ => rfl))
      · rw [h1]; exact .upd (modHs_get _ p _) (keeps_hs now _ (fun _ => rfl))

theorem underLoad_keeps (s : Server) (rx tx host : Bytes) (now : Time) (r : HashChoice → Rnd) :
    KeepsAll now s (s.handleMsgUnderLoad C rx tx host now r).2 := by
  rcases underLoad_cases C s rx tx host now r with ⟨x, -, hx, -⟩ | ⟨-, hx⟩ | ⟨h81, i, ids, s1, -, hs1, ⟨-, hx⟩ |
    ⟨e, -, ⟨-, hx⟩ | ⟨-, ⟨-, hx⟩ | ⟨-, hx⟩⟩⟩⟩
  · rw [hx]; exact .same rfl
  · rw [hx]; exact handleMsg_keeps s rx tx now r
  · rw [hx]; exact .same (by rw [hs1])
  · rw [hx]
    exact KeepsAll.trans (.same (by rw [hs1])) (handleMsg_keeps s1 rx tx now r)
  · rw [hx]; exact .same (by rw [hs1])
  · rw [hx]; exact .same (by rw [hs1])

/-! ### C19 -/

/-- `o` is a successful call of `initiate_handshake` for peer `p` -/
def Server.Op.Initiates (C : Crypto) (s : Server) (p : Nat) : Op → Prop
  | .initiate p' now r tx => p' = p ∧ ∃ m, (s.initiate C p now r tx).1 = .ok m
  | _ => False

/-- `o` is a call of `poll` that asks for an initiation with peer `p` -/
def Server.Op.Requests (s : Server) (p : Nat) : Op → Prop
  | .poll now r => ∃ s', s.poll now r = some (.sendInitiation p, s')
  | _ => False

/-- no session or handshake is younger than `T` -/
def CreatedBefore (T : Time) (q : Peer) : Prop :=
  (∀ x, q.session = some x → x.createdAt ≤ T) ∧ (∀ h, q.handshake = some h → h.createdAt ≤ T)

/-- one call: request flag and creation times -/
theorem step_request (s : Server) (o : Op) (T : Time) (ht : ∀ u, o.time = some u → u ≤ T) {p : Nat} {q : Peer} (hq : s.peers[p]? = some q)
    (hT : CreatedBefore T q) :
    ∃ q', (s.step C o).peers[p]? = some q' ∧ CreatedBefore T q' ∧
      (o.Initiates C s p → q'.initReq = false) ∧ (o.Requests s p → q'.initReq = true) ∧
      (¬ o.Initiates C s p → ¬ o.Requests s p → q'.initReq = q.initReq) := by
  have keep : ∀ {now : Time} {s' : Server}, now ≤ T → KeepsAll now s s' → ∃ q', s'.peers[p]? = some q' ∧ CreatedBefore T q' ∧ q'.initReq = q.initReq := by
    intro now s' hn h
    obtain ⟨q', hq', k⟩ := h p q hq
    refine ⟨q', hq', ⟨fun x hx => ?_, fun x hx => ?_⟩, k.initReq⟩
    · rcases k.session x hx with e | ⟨y, hy, e⟩
      · rw [e]; exact hn
      · rw [e]; exact hT.1 y hy
    · obtain ⟨y, hy, e⟩ := k.handshake x hx
      rw [e]; exact hT.2 y hy
  cases o with
  | addPeer psk pk v osk =>
    refine ⟨q, ?_, hT, fun h => h.elim, fun h => h.elim, fun _ _ => rfl⟩
    show (s.addPeer C psk pk v osk).2.peers[p]? = _
    unfold addPeer
    simp only
    split
    · exact hq
    · show (s.peers ++ _)[p]? = _
      rw [List.getElem?_append_left (List.getElem?_eq_some_iff.mp hq).1]; exact hq
  | retransmit p' tx =>
    refine ⟨q, ?_, hT, fun h => h.elim, fun h => h.elim, fun _ _ => rfl⟩
    show (s.retransmit C p' tx).2.peers[p]? = _
    rw [retransmit_state]; exact hq
  | handleMsg rx tx now r =>
    obtain ⟨q', h1, h2, h3⟩ := keep (ht now rfl) (handleMsg_keeps (C := C) s rx tx now r)
    exact ⟨q', h1, h2, fun h => h.elim, fun h => h.elim, fun _ _ => h3⟩
  | handleMsgUnderLoad rx tx host now r =>
    obtain ⟨q', h1, h2, h3⟩ := keep (ht now rfl) (underLoad_keeps (C := C) s rx tx host now r)
    exact ⟨q', h1, h2, fun h => h.elim, fun h => h.elim, fun _ _ => h3⟩
  | initiate p' now r tx =>
    rcases initiate_cases C s p' now r tx with ⟨x, hx⟩ | ⟨peer, ih, hs, e, hp, hi, hc, hfree, hres⟩
    · refine ⟨q, ?_, hT, ?_, fun h => h.elim, fun _ _ => rfl⟩
      · show (s.initiate C p' now r tx).2.peers[p]? = _
        rw [hx]; exact hq
      · rintro ⟨rfl, m, hm⟩
        rw [hx] at hm; cases hm
    · have hsc : hs.createdAt = now := (initiation_facts hi).2.2.2.2.2.2.1
      have hg : ∀ f, (∀ h, (f h : IniHs).createdAt = h.createdAt) → ∃ q', ((s.hsPut p' hs).modHs p' f).peers[p]? = some q' ∧ CreatedBefore T q' ∧
          (p = p' → q'.initReq = false) ∧ (p ≠ p' → q'.initReq = q.initReq) := by
        intro f hf
        rw [modHs_get, hsPut_get]
        by_cases hpp : p = p'
        · rw [if_pos hpp, if_pos hpp, hq]
          refine ⟨_, rfl, ⟨hT.1, fun h hh => ?_⟩, fun _ => rfl, fun h => absurd hpp h⟩
          simp only [Option.map_some, Option.some.injEq] at hh
          rw [← hh, hf, hsc]; exact ht now rfl
        · rw [if_neg hpp, if_neg hpp, hq]
          exact ⟨q, rfl, hT, fun h => absurd h hpp, fun _ => rfl⟩
      obtain ⟨f, hfe, hf⟩ : ∃ f : IniHs → IniHs, (s.initiate C p' now r tx).2 = (s.hsPut p' hs).modHs p' f ∧
          (∀ h, (f h).createdAt = h.createdAt) := ⟨_, congrArg Prod.snd hres, fun _ => rfl⟩
      show ∃ q', (s.initiate C p' now r tx).2.peers[p]? = some q' ∧ _
      rw [hfe]
      obtain ⟨q', h1, h2, h3, h4⟩ := hg f hf
      refine ⟨q', h1, h2, fun h => h3 h.1.symm, fun h => h.elim, fun h _ => h4 ?_⟩
      rintro rfl
      exact h ⟨rfl, _, by rw [hres]⟩
  | poll now r =>
    cases hp : s.poll now r with
    | none =>
      refine ⟨q, ?_, hT, fun h => h.elim, ?_, fun _ _ => rfl⟩
      · simp only [step, hp]; exact hq
      · rintro ⟨s', h⟩; rw [hp] at h; cases h
    | some x =>
      obtain ⟨c, s'⟩ := x
      obtain ⟨q', hq', heff⟩ := poll_effect hp hq
      refine ⟨q', ?_, ⟨fun x hx => ?_, fun h hh => ?_⟩, fun h => h.elim, ?_, ?_⟩
      · simp only [step, hp]; exact hq'
      · rcases heff.session with e | ⟨-, e⟩
        · exact hT.1 x (e ▸ hx)
        · rw [e] at hx; cases hx
      · rcases heff.handshake with ⟨-, e | ⟨e, -⟩⟩ | ⟨-, y, hy, e⟩
        · exact hT.2 h (e ▸ hh)
        · rw [e] at hh; cases hh
        · rw [e] at hh; cases hh
          exact hT.2 y hy
      · rintro ⟨s2, h⟩
        rw [hp] at h
        cases h
        rcases heff.initReq with e | ⟨-, e⟩
        · obtain ⟨h1, -⟩ := poll_exact hp
          obtain ⟨⟨p', q1, hq1, hd⟩, h2⟩ := h1 rfl
          have hnd : ¬ Due s' now (.sendInitiation p) := fun hd => ((h2 _).mp hd).2 rfl
          cases hi : q'.initReq with
          | true => rfl
          | false =>
            exfalso
            cases hd with
            | sendInitiation hi1 g1 g2 =>
              rw [hq] at hq1; cases hq1
              refine hnd ⟨p, q', hq', .sendInitiation hi (fun x hx => ?_) (fun h hh => ?_)⟩
              · rcases heff.session with e | ⟨-, e⟩
                · exact g1 x (e ▸ hx)
                · rw [e] at hx; cases hx
              · rcases heff.handshake with ⟨-, e | ⟨e, -⟩⟩ | ⟨e, -⟩
                · exact g2 h (e ▸ hh)
                · rw [e] at hh; cases hh
                · cases e
        · exact e
      · intro _ hnr
        rcases heff.initReq with e | ⟨hc, -⟩
        · exact e
        · exact absurd ⟨s', hc ▸ hp⟩ hnr

/-- The application has answered every request for an initiation with peer `p`: in the history `ops` from
`s`, every poll that asks for it is followed by a successful `initiate_handshake`. -/
def Answered (C : Crypto) (p : Nat) : Server → List Op → Prop
  | _, [] => True
  | s, o :: ops => (o.Requests s p → ∃ pre o' post, ops = pre ++ o' :: post ∧ o'.Initiates C ((s.step C o).run C pre) p) ∧
      Answered C p (s.step C o) ops

theorem run_append (s : Server) (a b : List Op) : s.run C (a ++ b) = (s.run C a).run C b := by
  unfold run; rw [List.foldl_append]

theorem answered_append {p : Nat} (pre : List Op) : ∀ {s : Server} {post : List Op}, Answered C p s (pre ++ post) → Answered C p (s.run C pre) post := by
  induction pre with
  | nil => intro s post h; exact h
  | cons o pre ih => intro s post h; exact ih h.2

theorem run_request (ops : List Op) : ∀ (s : Server) (T : Time), (∀ o ∈ ops, ∀ u, o.time = some u → u ≤ T) → ∀ {p : Nat} {q : Peer},
    s.peers[p]? = some q → CreatedBefore T q → Answered C p s ops → (q.initReq = false ∨ ∃ pre o' post, ops = pre ++ o' :: post ∧ o'.Initiates C (s.run C pre) p) →
    ∃ q', (s.run C ops).peers[p]? = some q' ∧ CreatedBefore T q' ∧ q'.initReq = false := by
  induction ops with
  | nil =>
    intro s T _ p q hq hT _ hi
    rcases hi with hi | ⟨pre, o', post, h, -⟩
    · exact ⟨q, hq, hT, hi⟩
    · cases pre <;> cases h
  | cons o ops ih =>
    intro s T ht p q hq hT hA hi
    obtain ⟨q', hq', hT', h1, h2, h3⟩ := step_request (C := C) s o T (ht o List.mem_cons_self) hq hT
    refine ih (s.step C o) T (fun o' ho' => ht o' (List.mem_cons_of_mem _ ho')) hq' hT' hA.2 ?_
    by_cases hini : o.Initiates C s p
    · exact Or.inl (h1 hini)
    · by_cases hreq : o.Requests s p
      · exact Or.inr (hA.1 hreq)
      · rw [h3 hini hreq]
        rcases hi with hi | ⟨pre, o', post, h, h'⟩
        · exact Or.inl hi
        · cases pre with
          | nil => cases h; exact absurd h' hini
          | cons a pre => cases h; exact Or.inr ⟨pre, o', post, rfl, h'⟩

/-- **C19**, the part that holds: as long as the application answers every request with a successful
`initiate_handshake`, a new exchange is requested again at the latest 180 s after the last thing that
happened, no matter what happened: in any history of calls made until time `T`, the application polling at
`T` + 180 s or later is asked to initiate with every peer. (Requests that the application ignores are not
repeated: `ignored_request_not_repeated`.) -/
theorem rekey_requested_again_partial (ops : List Op) (s : Server) (T now : Time) (ht : ∀ o ∈ ops, ∀ u, o.time = some u → u ≤ T)
    (hnow : T + secs 180 ≤ now) {p : Nat} {q : Peer} (hq : s.peers[p]? = some q) (hT : CreatedBefore T q) (hi : q.initReq = false)
    (hA : Answered C p s ops) {rs : Nat → PollRnd} {evs : List PollResult} {s' : Server} {t : Time}
    (hrun : PollRun now rs (s.run C ops) evs s' t) : PollResult.sendInitiation p ∈ evs := by
  obtain ⟨q', hq', hT', hi'⟩ := run_request ops s T ht hq hT hA (Or.inl hi)
  obtain ⟨-, hev, -⟩ := poll_run_exact hrun
  rw [hev]
  have a : ∀ c T n d e : Int, c ≤ T → T + d ≤ n → e ≤ d → c + e < n + 25 := by intros; omega
  refine ⟨p, q', hq', .sendInitiation hi' (fun x hx => ?_) (fun h hh => ?_)⟩
  · unfold rekeyTime
    cases x.role
    · exact a _ _ _ _ _ (hT'.1 x hx) hnow (by decide)
    · exact a _ _ _ _ _ (hT'.1 x hx) hnow (by decide)
  · exact a _ _ _ _ _ (hT'.2 h hh) hnow (Int.le_refl _)

/-- **C19 is false in general**: a request that the application did not follow is never repeated, whatever
else happens, until the application initiates an exchange on its own. -/
theorem ignored_request_not_repeated (s : Server) (o : Op) (p : Nat) (hp : p < s.peers.length) (hreq : o.Requests s p) (ops : List Op)
    (hno : ∀ pre o' post, ops = pre ++ o' :: post → ¬ o'.Initiates C (((s.step C o)).run C pre) p) :
    ∀ pre o' post, ops = pre ++ o' :: post → ¬ o'.Requests ((s.step C o).run C pre) p := by
  have key : ∀ (s : Server) (o : Op) (q : Peer), s.peers[p]? = some q → ¬ o.Initiates C s p → (q.initReq = true ∨ o.Requests s p) →
      ∃ q', (s.step C o).peers[p]? = some q' ∧ q'.initReq = true := by
    intro s o q hq hni hr
    obtain ⟨T1, hT1⟩ : ∃ T : Time, CreatedBefore T q := by
      have k : ∀ a b : Int, a ≤ max a b ∧ b ≤ max a b := by intros; omega
      refine ⟨max ((q.session.map (·.createdAt)).getD 0) ((q.handshake.map (·.createdAt)).getD 0), fun x hx => ?_, fun x hx => ?_⟩
      · rw [hx]; exact (k _ _).1
      · rw [hx]; exact (k _ _).2
    obtain ⟨T, hT1', hT2⟩ : ∃ T : Time, T1 ≤ T ∧ ∀ u, o.time = some u → u ≤ T := by
      have k : ∀ a b : Int, a ≤ max a b ∧ b ≤ max a b := by intros; omega
      exact ⟨max T1 (o.time.getD 0), (k _ _).1, fun u hu => by rw [hu]; exact (k _ _).2⟩
    obtain ⟨q', hq', -, -, h2, h3⟩ := step_request (C := C) s o T hT2 hq ⟨fun x hx => Int.le_trans (hT1.1 x hx) hT1', fun x hx => Int.le_trans (hT1.2 x hx) hT1'⟩
    refine ⟨q', hq', ?_⟩
    by_cases hr' : o.Requests s p
    · exact h2 hr'
    · rw [h3 hni hr']
      exact hr.resolve_right hr'
  have hini : ¬ o.Initiates C s p := by
    intro h
    cases o with
    | initiate => exact hreq
    | _ => exact h
  have hnone : ∀ (s : Server) (o : Op) (q : Peer), s.peers[p]? = some q → q.initReq = true → ¬ o.Requests s p := by
    intro s o q hq hi hr
    cases o with
    | poll now r =>
      obtain ⟨s', h⟩ := hr
      obtain ⟨⟨p', q1, hq1, hd⟩, -⟩ := (poll_exact h).1 rfl
      cases hd with
      | sendInitiation hi1 =>
        rw [hq] at hq1; cases hq1
        rw [hi] at hi1; cases hi1
    | _ => exact hr
  obtain ⟨q1, hq1, hi1⟩ := key s o _ (List.getElem?_eq_getElem hp) hini (Or.inr hreq)
  have main : ∀ (ops : List Op) (s : Server) (q : Peer), s.peers[p]? = some q → q.initReq = true →
      (∀ pre o' post, ops = pre ++ o' :: post → ¬ o'.Initiates C (s.run C pre) p) →
      ∀ pre o' post, ops = pre ++ o' :: post → ¬ o'.Requests (s.run C pre) p := by
    intro ops
    induction ops with
    | nil => intro s q _ _ _ pre o' post h; cases pre <;> cases h
    | cons a ops ih =>
      intro s q hq hi hno pre o' post h
      cases pre with
      | nil => cases h; exact hnone s a q hq hi
      | cons b pre =>
        cases h
        obtain ⟨q', hq', hi'⟩ := key s a q hq (hno [] a _ rfl) (Or.inl hi)
        exact ih (s.step C a) q' hq' hi' (fun pre' o1 post' h1 => hno (a :: pre') o1 post' (by rw [h1]; rfl)) pre o' post rfl
  exact main ops _ q1 hq1 hi1 hno

end
end Verif
