import Verif.Model.Build
import Verif.Thm.Index
/-
C42 (construction sites) and C66 (building the protocol server).
-/
namespace Verif
open Server

namespace Site
variable {B T E : Type}

/-- **Specification**: the stages of a site. A site only moves forward. -/
def stage : Site B T → Nat
  | .builder _ => 0
  | .product _ => 1
  | .void => 2

theorem step_stage (build : B → Except E T) (s : Site B T) (o : Op B T) : s.stage ≤ (s.step build o).stage := by
  cases o <;> cases s <;> simp [step, erect, modifyTakenWithReturn, take, builderMut, productMut, stage]

theorem run_stage (build : B → Except E T) (s : Site B T) (ops : List (Op B T)) : s.stage ≤ (s.run build ops).stage := by
  induction ops generalizing s with
  | nil => exact Nat.le_refl _
  | cons o ops ih => exact Nat.le_trans (step_stage build s o) (ih _)

/-- **C42.** Whoever takes what is in a construction site leaves it empty, for good. -/
theorem taken_stays_void (build : B → Except E T) (s : Site B T) (pre post : List (Op B T)) :
    s.run build (pre ++ .take :: post) = .void := by
  have hv : ∀ l : List (Op B T), (Site.void : Site B T).run build l = .void := by
    intro l
    induction l with
    | nil => rfl
    | cons o l ih => cases o <;> exact ih
  have h : s.run build (pre ++ .take :: post) = ((s.run build pre).step build .take).run build post := List.foldl_append ..
  rw [h]
  exact hv post

/-- **C42.** For every sequence of operations on a construction site:
a site only moves forward through builder, product, void (it never goes back to being a builder, and a
product never becomes one again); among all `erect` calls at most one succeeds; a call on a product
reports `AlreadyBuilt`, one on a void site `IsVoid`, and neither changes the site; and once there is a
product it stays exactly as it is for as long as nobody takes or modifies it. -/
theorem site_lifecycle (build : B → Except E T) (s : Site B T) (ops : List (Op B T)) :
    (∀ pre post, ops = pre ++ post → (s.run build pre).stage ≤ (s.run build ops).stage) ∧
    (∀ pre mid post, ops = pre ++ .erect :: mid ++ .erect :: post →
      ((s.run build pre).erect build).1 = .ok () → ((s.run build (pre ++ .erect :: mid)).erect build).1 ≠ .ok ()) ∧
    (∀ t, s.run build ops = .product t → (s.run build ops).erect build = (.error .alreadyBuilt, .product t)) ∧
    (s.run build ops = .void → (s.run build ops).erect build = (.error .isVoid, .void)) ∧
    (∀ pre post t, ops = pre ++ post → s.run build pre = .product t →
      (∀ o ∈ post, o ≠ .take ∧ ∀ f, o ≠ .productMut f) → s.run build ops = .product t) := by
  have split : ∀ (a b : List (Op B T)), s.run build (a ++ b) = (s.run build a).run build b := fun a b => List.foldl_append ..
  refine ⟨?_, ?_, ?_, ?_, ?_⟩
  · rintro pre post rfl
    rw [split]; exact run_stage _ _ _
  · rintro pre mid post - h1 h2
    -- after the first success the site is past the builder stage
    have k : 1 ≤ (s.run build (pre ++ .erect :: mid)).stage := by
      rw [split]
      refine Nat.le_trans ?_ (run_stage build ((s.run build pre).step build .erect) mid)
      generalize s.run build pre = x at h1
      cases x <;> simp [step, erect, modifyTakenWithReturn, take, stage] at h1 ⊢
      rename_i b
      cases hb : build b <;> rw [hb] at h1 <;> simp [stage] at h1 ⊢
    generalize s.run build (pre ++ .erect :: mid) = y at k h2
    cases y <;> simp [erect, modifyTakenWithReturn, take, stage] at h2 k
  · intro t ht; rw [ht]; rfl
  · intro ht; rw [ht]; rfl
  · rintro pre post t rfl ht hpost
    rw [split, ht]
    clear ht split
    induction post with
    | nil => rfl
    | cons o os ih =>
      have : (Site.product t : Site B T).step build o = .product t := by
        have := hpost o (by simp)
        cases o with
        | erect => rfl
        | take => exact absurd rfl this.1
        | builderMut f => rfl
        | productMut f => exact absurd rfl (this.2 f)
      show ((Site.product t : Site B T).step build o).run build os = _
      rw [this]
      exact ih (fun x hx => hpost x (by simp [hx]))

/-- **C42** (edits). What is assigned through `builder_mut` before `erect` is what is built; what is assigned through `product_mut` afterwards is what the product is. -/
theorem edits_take_effect (build : B → Except E T) (b : B) (fs : List (B → B)) (gs : List (T → T)) (t : T) (h : build (fs.foldl (fun b f => f b) b) = .ok t) :
    (Site.builder b).run build (fs.map .builderMut ++ .erect :: gs.map .productMut) = .product (gs.foldl (fun t g => g t) t) := by
  have h2 : ∀ (gs : List (T → T)) (t : T), (Site.product t : Site B T).run build (gs.map .productMut) = .product (gs.foldl (fun t g => g t) t) := by
    intro gs
    induction gs with
    | nil => exact fun _ => rfl
    | cons g gs ih => exact fun t => ih (g t)
  induction fs generalizing b with
  | nil =>
    have e : (Site.builder b).step build .erect = .product t := by simp only [step, erect, modifyTakenWithReturn, take]; rw [show build b = .ok t from h]
    show ((Site.builder b).step build .erect).run build _ = _
    rw [e]; exact h2 gs t
  | cons f fs ih => exact ih (f b) h

/-- A failed build loses the builder: the site is void and no later call can ever succeed. -/
theorem failed_build_is_final (build : B → Except E T) (b : B) (e : E) (h : build b = .error e) (ops : List (Op B T)) :
    ((Site.builder b : Site B T).erect build).1 = .error (.other e) ∧
    (((Site.builder b : Site B T).erect build).2.run build ops) = .void := by
  have h0 : (Site.builder b : Site B T).erect build = (.error (.other e), .void) := by
    simp [erect, modifyTakenWithReturn, take, h]
  rw [h0]
  refine ⟨rfl, ?_⟩
  have h2 := run_stage build (Site.void : Site B T) ops
  cases hs : (Site.void : Site B T).run build ops with
  | void => rfl
  | builder b => rw [hs] at h2; simp [stage] at h2
  | product t => rw [hs] at h2; simp [stage] at h2

/-- C42: a run in which the first `erect` succeeds and the second one is refused. -/
example : let build : Nat → Except Unit Nat := fun n => if n = 0 then .error () else .ok (n + 1)
    ((Site.builder 0 : Site Nat Nat).run build [.builderMut (· + 1), .erect, .erect, .productMut (· * 5)]) = .product 10 ∧
    ((Site.builder 0 : Site Nat Nat).erect build).1 = .error (.other ()) := ⟨rfl, rfl⟩

end Site

section
variable {C : Crypto}

/-- The peer id a configured peer will have: the hash of its public key under the hash function of its version. -/
def PeerParams.id (C : Crypto) (x : PeerParams) : Bytes :=
  HashDomain.mix C x.version.hash (HashDomain.dom C x.version.hash .peerid) x.pk

/-- The peer record that configuration creates. -/
def PeerParams.fresh (x : PeerParams) : Peer := freshPeer x.psk x.pk x.version x.osk

theorem addAll_spec (xs : List PeerParams) : ∀ (s : Server) (done : List PeerParams),
    s.peers = done.map PeerParams.fresh → PeerIdx C s → (done.map (PeerParams.id C)).Nodup →
    (((done ++ xs).map (PeerParams.id C)).Nodup → ∃ s', Builder.addAll C s done.length xs = some (.ok s') ∧
      s'.peers = (done ++ xs).map PeerParams.fresh ∧ s'.sskm = s.sskm ∧ s'.spkm = s.spkm ∧
      ∃ ops, (∀ o ∈ ops, ∃ x ∈ xs, o = .addPeer x.psk x.pk x.version x.osk) ∧ s' = s.run C ops) ∧
    (¬ ((done ++ xs).map (PeerParams.id C)).Nodup → Builder.addAll C s done.length xs = some (.error (.addPeer .peerExists))) := by
  induction xs with
  | nil =>
    intro s done hp hidx hnd
    rw [List.append_nil]
    exact ⟨fun _ => ⟨s, rfl, hp, rfl, rfl, [], by simp, rfl⟩, fun h => absurd hnd h⟩
  | cons x xs ih =>
    intro s done hp hidx hnd
    have hlen : s.peers.length = done.length := by rw [hp, List.length_map]
    have happ : done ++ x :: xs = (done ++ [x]) ++ xs := by simp
    cases hi : s.index (.peer (pidt C x.fresh)) with
    | some p =>
      -- the id is taken
      obtain ⟨q, hq, hpid⟩ := (hidx _ _).mp hi
      rw [hp, List.getElem?_map, Option.map_eq_some_iff] at hq
      obtain ⟨y, hy, rfl⟩ := hq
      have hdup : ¬ ((done ++ x :: xs).map (PeerParams.id C)).Nodup := by
        intro h
        rw [List.map_append, List.map_cons] at h
        have := (List.nodup_append.mp h).2.2 (y.id C) (List.mem_map_of_mem (List.mem_of_getElem? hy)) (x.id C) (by simp)
        exact this hpid
      refine ⟨fun h => absurd h hdup, fun _ => ?_⟩
      have : s.addPeer C x.psk x.pk x.version x.osk = (.error .peerExists, s) := by
        unfold PeerParams.fresh at hi
        unfold Server.addPeer
        simp only [hi]
      rw [Builder.addAll, this]
    | none =>
      have hadd : s.addPeer C x.psk x.pk x.version x.osk = (.ok s.peers.length,
          { s with index := s.index.set (.peer (pidt C x.fresh)) (some s.peers.length), peers := s.peers ++ [x.fresh] }) := by
        unfold PeerParams.fresh at hi ⊢
        unfold Server.addPeer
        simp only [hi]
      have hfresh : ∀ y ∈ done, y.id C ≠ x.id C := by
        intro y hy he
        obtain ⟨n, hn⟩ := List.mem_iff_getElem?.mp hy
        have := (hidx (pidt C x.fresh) n).mpr ⟨y.fresh, by rw [hp, List.getElem?_map, hn]; rfl, he⟩
        rw [hi] at this; cases this
      have hnd' : ((done ++ [x]).map (PeerParams.id C)).Nodup := by
        rw [List.map_append, List.nodup_append]
        refine ⟨hnd, by simp, ?_⟩
        intro a ha b hb
        obtain ⟨y, hy, rfl⟩ := List.mem_map.mp ha
        simp only [List.map_cons, List.map_nil, List.mem_singleton] at hb
        subst hb
        exact hfresh y hy
      have hidx' := prim_peerIdx (C := C) (F := False) (.addPeer (s := s) x.psk x.pk x.version x.osk hi) hidx
      obtain ⟨i1, i2⟩ := ih { s with index := s.index.set (.peer (pidt C x.fresh)) (some s.peers.length), peers := s.peers ++ [x.fresh] }
        (done ++ [x]) (by simp [hp]) hidx' hnd'
      rw [List.length_append, List.length_singleton] at i1 i2
      have hstep : Builder.addAll C s done.length (x :: xs) = Builder.addAll C
          { s with index := s.index.set (.peer (pidt C x.fresh)) (some s.peers.length), peers := s.peers ++ [x.fresh] } (done.length + 1) xs := by
        rw [Builder.addAll, hadd]
        simp only [hlen, if_true]
      rw [happ, hstep]
      refine ⟨fun h => ?_, i2⟩
      obtain ⟨s', h1, h2, h3, h4, ops, h5, h6⟩ := i1 h
      refine ⟨s', h1, h2, h3, h4, .addPeer x.psk x.pk x.version x.osk :: ops, ?_, ?_⟩
      · intro o ho
        rcases List.mem_cons.mp ho with rfl | ho
        · exact ⟨x, by simp, rfl⟩
        · obtain ⟨y, hy, rfl⟩ := h5 o ho
          exact ⟨y, by simp [hy], rfl⟩
      · rw [h6]
        show _ = (s.step C (.addPeer x.psk x.pk x.version x.osk)).run C ops
        simp only [step, hadd]

/-- **C66.** Building the protocol server from a configuration never panics, and its outcome depends only
on the configuration: without a key pair it fails with `MissingKeypair`; if two configured peers have the
same id (in particular, the same key and version) it fails; otherwise it yields a server with the given key
pair whose peers are exactly the configured ones, in order, each with its own pre-shared key, public key,
version and output domain, and that server is reachable (so every other theorem applies to it). -/
theorem build_exact (r : NewRnd) (hr : r.b0.length = 32 ∧ r.b1.length = 32 ∧ r.c0.length = 16 ∧ r.c1.length = 16 ∧ r.kk.length = 32)
    (b : Builder) (hpsk : ∀ x ∈ b.peers, ∀ k, x.psk = some k → k.length = 32) :
    (b.keypair = none → b.build C r = some (.error .missingKeypair)) ∧
    (∀ sk pk, b.keypair = some (sk, pk) → ¬ (b.peers.map (PeerParams.id C)).Nodup → b.build C r = some (.error (.addPeer .peerExists))) ∧
    (∀ sk pk, b.keypair = some (sk, pk) → (b.peers.map (PeerParams.id C)).Nodup → ∃ s, b.build C r = some (.ok s) ∧
      s.sskm = sk ∧ s.spkm = pk ∧ s.peers = b.peers.map (fun x => freshPeer x.psk x.pk x.version x.osk) ∧ Reachable C s) := by
  refine ⟨?_, ?_, ?_⟩
  · intro h; unfold Builder.build; rw [h]
  · intro sk pk h hd
    unfold Builder.build; rw [h]
    exact (addAll_spec b.peers (Server.new sk pk r.b0 r.b1 r.c0 r.c1 r.kk) [] rfl (peerIdx_new _ _ _ _ _ _ _ _) List.nodup_nil).2 hd
  · intro sk pk h hd
    unfold Builder.build; rw [h]
    obtain ⟨s, h1, h2, h3, h4, ops, h5, h6⟩ :=
      (addAll_spec b.peers (Server.new sk pk r.b0 r.b1 r.c0 r.c1 r.kk) [] rfl (peerIdx_new _ _ _ _ _ _ _ _) List.nodup_nil).1 hd
    refine ⟨s, h1, h3, h4, h2, ?_⟩
    have h0 : Reachable C (Server.new sk pk r.b0 r.b1 r.c0 r.c1 r.kk) := .new _ _ _ _ _ _ _ hr.1 hr.2.1 hr.2.2.1 hr.2.2.2.1 hr.2.2.2.2
    rw [h6]
    clear h6 h1 h2 h3 h4
    generalize Server.new sk pk r.b0 r.b1 r.c0 r.c1 r.kk = s0 at h0
    induction ops generalizing s0 with
    | nil => exact h0
    | cons o ops ih =>
      refine ih (fun o ho => h5 o (by simp [ho])) _ (.step _ _ h0 ?_)
      obtain ⟨x, hx, rfl⟩ := h5 o (by simp)
      exact fun k hk => hpsk x hx k hk

end

/-- **C66**: the first key pair given is the one the builder has; a second one is refused and changes nothing.
The peers given are not affected. -/
theorem with_keypair_first (b : Builder) (kps : List (Bytes × Bytes)) :
    (kps.foldl (fun b kp => (b.withKeypair kp).2) b).keypair = b.keypair.or kps.head? ∧
    (kps.foldl (fun b kp => (b.withKeypair kp).2) b).peers = b.peers ∧
    ∀ kp, (b.withKeypair kp).1 = true ↔ b.keypair = none := by
  refine ⟨?_, ?_, fun kp => by cases h : b.keypair <;> simp [Builder.withKeypair, h]⟩
  · induction kps generalizing b with
    | nil => simp
    | cons kp kps ih =>
      rw [List.foldl_cons, ih]
      cases h : b.keypair <;> simp [Builder.withKeypair, h]
  · induction kps generalizing b with
    | nil => rfl
    | cons kp kps ih =>
      rw [List.foldl_cons, ih]
      cases h : b.keypair <;> simp [Builder.withKeypair, h]

/-- C66: two peers with different keys are built, two with the same key are not. -/
example : let r : NewRnd := ⟨List.replicate 32 1, List.replicate 32 2, List.replicate 16 3, List.replicate 16 4, List.replicate 32 5⟩
    let a : PeerParams := ⟨none, [1, 2], .v03, .wireguardPsk⟩
    let b : PeerParams := ⟨none, [3, 4], .v03, .wireguardPsk⟩
    (match (⟨some ([1], [2]), [a, b]⟩ : Builder).build Toy.crypto r with | some (.ok s) => s.peers.length | _ => 0) = 2 ∧
    (match (⟨some ([1], [2]), [a, b, a]⟩ : Builder).build Toy.crypto r with | some (.error e) => some e | _ => none) = some (.addPeer .peerExists) := by
  decide +kernel

end Verif
