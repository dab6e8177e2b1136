import Verif.Model.SecretMem
/-
C57, C81: secret memory is zero unless it belongs to a secret, secrets do not share memory, every block goes back to its allocator.
-/
namespace Verif.SecretMem

/-! ## Specification -/

/-- The abstract view: secrets are independent values. `v h`: the bytes of secret `h`; `n`: the next handle. -/
def put (v : Nat → Option Bytes) (h : Nat) (x : Option Bytes) : Nat → Option Bytes := fun i => if i = h then x else v i

/-- the effect an operation should have on the values, if it does not panic -/
def effect (v : Nat → Option Bytes) (n : Nat) : Op → Nat → Option Bytes
  | .zero _ _ k => put v n (some (zeros k))
  | .fromSlice _ _ _ x => put v n (some x)
  | .random _ _ k r => put v n (some (bytesOf k r))
  | .clone _ _ h => match v h with | none => v | some x => put v n (some x)
  | .write h f => match v h with | none => v | some x => put v h (some (bytesOf x.length f))
  | .randomize h r => match v h with | none => v | some x => put v h (some (bytesOf x.length r))
  | .zeroize h => match v h with | none => v | some x => put v h (some (zeros x.length))
  | .drop _ _ h => put v h none
  | _ => v

/-- the operations that need memory -/
def creates (v : Nat → Option Bytes) : Op → Prop
  | .zero .. => True
  | .fromSlice .. => True
  | .random .. => True
  | .clone _ _ h => v h ≠ none
  | _ => False

/-- when an operation may panic -/
def mayPanic (v : Nat → Option Bytes) (policy : Option Kind) (op : Op) : Prop :=
  (creates v op ∧ policy = none) ∨
  (∃ t busy n x, op = .fromSlice t busy n x ∧ x.length ≠ n) ∨
  (∃ k k', op = .useOnly k ∧ policy = some k' ∧ k ≠ k') ∨
  (∃ p k', op = .tryMemfd p ∧ policy = some k' ∧ (if p then .memfd else .malloc) ≠ k') ∨
  (∃ k, op = .setType k ∧ policy ≠ none)

/-! ## Invariant -/

inductive Own where
  | free
  | hand
  | pool (t : Nat)
  | secret (h : Nat)
  deriving DecidableEq

/-- the box names a live block of its length and allocator -/
structure Good (s : St) (b : Box) : Prop where
  live : (s.mem b.addr).freed = false
  len : (s.mem b.addr).bytes.length = b.len
  kind : (s.mem b.addr).kind = b.kind

structure Inv (own : Nat → Own) (hand : Option Box) (s : St) : Prop where
  fault : s.fault = false
  fresh : ∀ a, s.next ≤ a → own a = .free
  sec : ∀ h b, s.secrets h = some b → own b.addr = .secret h ∧ Good s b
  secOwn : ∀ a h, own a = .secret h → ∃ b, s.secrets h = some b ∧ b.addr = a
  count : ∀ h, s.count ≤ h → s.secrets h = none
  pool : ∀ t n b, (n, b) ∈ s.pool t → own b.addr = .pool t ∧ Good s b ∧ n = b.len ∧ (s.mem b.addr).bytes = zeros n
  poolOwn : ∀ a t, own a = .pool t → ∃ n b, (n, b) ∈ s.pool t ∧ b.addr = a
  nodup : ∀ t, ((s.pool t).map fun p => p.2.addr).Nodup
  handOk : ∀ b, hand = some b → own b.addr = .hand ∧ Good s b
  handOwn : ∀ a, own a = .hand → ∃ b, hand = some b ∧ b.addr = a
  free : ∀ a, a < s.next → own a = .free → (s.mem a).freed = true ∧ (s.mem a).bytes = zeros (s.mem a).bytes.length
  kind : ∀ a, a < s.next → s.policy = some (s.mem a).kind

theorem zeros_length (n : Nat) : (zeros n).length = n := by simp [zeros]

theorem bytesOf_length (n : Nat) (f : Nat → UInt8) : (bytesOf n f).length = n := by simp [bytesOf]

theorem upd_same {α : Type} (f : Nat → α) (i : Nat) (x : α) : upd f i x i = x := by simp [upd]

theorem upd_ne {α : Type} {f : Nat → α} {i j : Nat} {x : α} (h : j ≠ i) : upd f i x j = f j := by simp [upd, h]

theorem Inv.lt {own : Nat → Own} {hand : Option Box} {s : St} (I : Inv own hand s) {a : Nat} (h : own a ≠ .free) : a < s.next := by
  rcases Nat.lt_or_ge a s.next with h1 | h1
  · exact h1
  · exact absurd (I.fresh a h1) h

/-- a write through a box that is not in a pool -/
theorem write_inv {own : Nat → Own} {hand : Option Box} {s : St} {b : Box} {v : Bytes} (I : Inv own hand s) (g : Good s b) (hv : v.length = b.len)
    (ho : own b.addr = .hand ∨ ∃ h, own b.addr = .secret h) :
    s.write b v = { s with mem := upd s.mem b.addr ⟨b.kind, v, false⟩ } ∧ Inv own hand (s.write b v) ∧ Good (s.write b v) b := by
  have e : s.write b v = { s with mem := upd s.mem b.addr ⟨b.kind, v, false⟩ } := by
    unfold St.write
    dsimp only
    rw [if_pos ⟨g.live, hv, g.len⟩, g.kind, g.live]
  refine ⟨e, ?_, ?_⟩
  rotate_left
  · rw [e]; constructor <;> simp [upd, hv]
  rw [e]
  have gd : ∀ c : Box, Good s c → c.addr = b.addr → c.len = b.len ∧ c.kind = b.kind := by
    intro c gc hc
    constructor
    · rw [← gc.len, ← g.len, hc]
    · rw [← gc.kind, ← g.kind, hc]
  have good : ∀ c : Box, Good s c → Good { s with mem := upd s.mem b.addr ⟨b.kind, v, false⟩ } c := by
    intro c gc
    by_cases hc : c.addr = b.addr
    · obtain ⟨h1, h2⟩ := gd c gc hc
      constructor <;> simp [upd, hc, h1, h2, hv]
    · constructor <;> simp [upd, hc, gc.live, gc.len, gc.kind]
  refine ⟨I.fault, I.fresh, fun h c hc => ⟨(I.sec h c hc).1, good c (I.sec h c hc).2⟩, I.secOwn, I.count, fun t n c hc => ?_, I.poolOwn, I.nodup, fun c hc => ⟨(I.handOk c hc).1, good c (I.handOk c hc).2⟩, I.handOwn, fun a ha hf => ?_, fun a ha => ?_⟩
  · obtain ⟨h1, h2, h3, h4⟩ := I.pool t n c hc
    have hne : c.addr ≠ b.addr := by
      intro h; rw [h] at h1; rcases ho with ho | ⟨_, ho⟩ <;> rw [ho] at h1 <;> cases h1
    exact ⟨h1, good c h2, h3, by dsimp only; rw [upd_ne hne]; exact h4⟩
  · have hne : a ≠ b.addr := by
      intro h; rw [h] at hf; rcases ho with ho | ⟨_, ho⟩ <;> rw [ho] at hf <;> cases hf
    dsimp only
    rw [upd_ne hne]; exact I.free a ha hf
  · dsimp only
    by_cases hne : a = b.addr
    · subst hne; rw [upd_same]; rw [I.kind _ ha, g.kind]
    · rw [upd_ne hne]; exact I.kind a ha

/-- a new block is in hand -/
theorem alloc_inv {own : Nat → Own} {s s' : St} {b : Box} {v : Bytes} (I : Inv own none s) (h : s.alloc v = some (b, s')) :
    b.len = v.length ∧ (s'.mem b.addr).bytes = v ∧ Inv (upd own b.addr .hand) (some b) s' ∧ s'.secrets = s.secrets ∧ s'.count = s.count ∧
      ∀ a, a < s.next → s'.mem a = s.mem a := by
  unfold St.alloc at h
  split at h
  · cases h
  rename_i k hk
  cases h
  dsimp only
  have nf : ∀ a, own a ≠ .free → a ≠ s.next := by
    intro a ha h; exact ha (I.fresh a (by omega))
  have good : ∀ c : Box, Good s c → own c.addr ≠ .free → Good { s with mem := upd s.mem s.next ⟨k, v, false⟩, next := s.next + 1 } c := by
    intro c gc hc
    have := nf _ hc
    constructor <;> simp [upd, this, gc.live, gc.len, gc.kind]
  refine ⟨rfl, by simp [upd], ?_, rfl, rfl, fun a ha => upd_ne (by omega)⟩
  refine ⟨I.fault, fun a ha => ?_, fun h c hc => ?_, fun a h ha => ?_, I.count, fun t n c hc => ?_, fun a t ha => ?_, I.nodup, fun c hc => ?_, fun a ha => ?_, fun a ha hf => ?_, fun a ha => ?_⟩
  · dsimp only at ha; rw [upd_ne (by omega)]; exact I.fresh a (by omega)
  · obtain ⟨h1, h2⟩ := I.sec h c hc
    have hn : own c.addr ≠ .free := by rw [h1]; simp
    exact ⟨by rw [upd_ne (nf _ hn)]; exact h1, good c h2 hn⟩
  · by_cases hn : a = s.next
    · rw [hn, upd_same] at ha; cases ha
    · rw [upd_ne hn] at ha; exact I.secOwn a h ha
  · obtain ⟨h1, h2, h3, h4⟩ := I.pool t n c hc
    have hn : own c.addr ≠ .free := by rw [h1]; simp
    exact ⟨by rw [upd_ne (nf _ hn)]; exact h1, good c h2 hn, h3, by dsimp only; rw [upd_ne (nf _ hn)]; exact h4⟩
  · by_cases hn : a = s.next
    · rw [hn, upd_same] at ha; cases ha
    · rw [upd_ne hn] at ha; exact I.poolOwn a t ha
  · cases hc
    exact ⟨upd_same .., by constructor <;> simp [upd]⟩
  · by_cases hn : a = s.next
    · exact ⟨_, rfl, hn.symm⟩
    · rw [upd_ne hn] at ha; obtain ⟨_, h, _⟩ := I.handOwn a ha; cases h
  · dsimp only at ha ⊢
    by_cases hn : a = s.next
    · rw [hn, upd_same] at hf; cases hf
    · rw [upd_ne hn] at hf ⊢; exact I.free a (by omega) hf
  · dsimp only at ha ⊢
    by_cases hn : a = s.next
    · rw [hn, upd_same]; exact hk
    · rw [upd_ne hn]; exact I.kind a (by omega)

theorem popSize_spec {n : Nat} {l l' : List (Nat × Box)} {b : Box} (h : popSize n l = some (b, l')) :
    ∃ l1 l2, l = l1 ++ (n, b) :: l2 ∧ l' = l1 ++ l2 := by
  induction l generalizing l' with
  | nil => cases h
  | cons p l ih =>
    obtain ⟨m, c⟩ := p
    unfold popSize at h
    split at h
    · rename_i hm; cases h; exact ⟨[], _, by simp [hm], rfl⟩
    · split at h
      · cases h
      · rename_i c' l'' hp
        cases h
        obtain ⟨l1, l2, h1, h2⟩ := ih hp
        exact ⟨(m, c) :: l1, l2, by simp [h1], by simp [h2]⟩

/-- a box leaves a pool: it is in hand -/
theorem unpool_inv {own : Nat → Own} {s : St} {t n : Nat} {b : Box} {l1 l2 : List (Nat × Box)} (I : Inv own none s) (hp : s.pool t = l1 ++ (n, b) :: l2) :
    Inv (upd own b.addr .hand) (some b) { s with pool := upd s.pool t (l1 ++ l2) } := by
  have hb : (n, b) ∈ s.pool t := by rw [hp]; simp
  obtain ⟨o, g, hn, hz⟩ := I.pool t n b hb
  have nd := I.nodup t
  rw [hp, List.map_append, List.map_cons] at nd
  have nd2 : b.addr ∉ (l1 ++ l2).map (fun p => p.2.addr) := by
    have := List.nodup_append.mp nd
    intro hm
    rw [List.map_append, List.mem_append] at hm
    rcases hm with hm | hm
    · exact this.2.2 _ hm _ (by simp) rfl
    · exact (List.nodup_cons.mp this.2.1).1 hm
  have sub : ∀ t' p, p ∈ upd s.pool t (l1 ++ l2) t' → p ∈ s.pool t' ∧ p.2.addr ≠ b.addr := by
    intro t' p h
    by_cases ht : t' = t
    · subst ht
      rw [upd_same] at h
      refine ⟨by rw [hp]; rcases List.mem_append.mp h with h | h <;> simp [h], fun he => nd2 (List.mem_map.mpr ⟨p, h, he⟩)⟩
    · rw [upd_ne ht] at h
      refine ⟨h, fun he => ?_⟩
      obtain ⟨m, c⟩ := p
      have h1 := (I.pool t' m c h).1
      dsimp only at he
      rw [he, o] at h1
      cases h1; exact ht rfl
  refine ⟨I.fault, fun a ha => ?_, fun h c hc => ?_, fun a h ha => ?_, I.count, fun t' m c hc => ?_, fun a t' ha => ?_, fun t' => ?_, fun c hc => ?_, fun a ha => ?_, fun a ha hf => ?_, I.kind⟩
  · rw [upd_ne (by rintro rfl; have := I.fresh _ ha; rw [o] at this; cases this)]; exact I.fresh a ha
  · obtain ⟨h1, h2⟩ := I.sec h c hc
    exact ⟨by rw [upd_ne (by intro he; rw [he, o] at h1; cases h1)]; exact h1, ⟨h2.1, h2.2, h2.3⟩⟩
  · by_cases hn : a = b.addr
    · rw [hn, upd_same] at ha; cases ha
    · rw [upd_ne hn] at ha; exact I.secOwn a h ha
  · obtain ⟨h1, h2⟩ := sub t' _ hc
    obtain ⟨g1, g2, g3, g4⟩ := I.pool t' m c h1
    exact ⟨by rw [upd_ne h2]; exact g1, ⟨g2.1, g2.2, g2.3⟩, g3, g4⟩
  · by_cases hn : a = b.addr
    · rw [hn, upd_same] at ha; cases ha
    · rw [upd_ne hn] at ha
      obtain ⟨m, c, h1, h2⟩ := I.poolOwn a t' ha
      refine ⟨m, c, ?_, h2⟩
      dsimp only
      by_cases ht : t' = t
      · subst ht
        rw [upd_same]
        rw [hp] at h1
        rcases List.mem_append.mp h1 with h1 | h1
        · simp [h1]
        · rcases List.mem_cons.mp h1 with h1 | h1
          · cases h1; exact absurd h2.symm hn
          · simp [h1]
      · rw [upd_ne ht]; exact h1
  · dsimp only
    by_cases ht : t' = t
    · subst ht
      rw [upd_same, List.map_append]
      refine List.Nodup.sublist ?_ nd
      exact List.Sublist.append (List.Sublist.refl _) (List.sublist_cons_self _ _)
    · rw [upd_ne ht]; exact I.nodup t'
  · cases hc; exact ⟨upd_same .., ⟨g.1, g.2, g.3⟩⟩
  · by_cases hn : a = b.addr
    · exact ⟨b, rfl, hn.symm⟩
    · rw [upd_ne hn] at ha; obtain ⟨_, h, _⟩ := I.handOwn a ha; cases h
  · by_cases hn : a = b.addr
    · rw [hn, upd_same] at hf; cases hf
    · rw [upd_ne hn] at hf; exact I.free a ha hf

/-- a secret is taken apart: its box is in hand -/
theorem unsecret_inv {own : Nat → Own} {s : St} {h : Nat} {b : Box} (I : Inv own none s) (hs : s.secrets h = some b) :
    Inv (upd own b.addr .hand) (some b) { s with secrets := upd s.secrets h none } := by
  obtain ⟨o, g⟩ := I.sec h b hs
  refine ⟨I.fault, fun a ha => ?_, fun i c hc => ?_, fun a i ha => ?_, fun i hi => ?_, fun t' m c hc => ?_, fun a t' ha => ?_, I.nodup, fun c hc => ?_, fun a ha => ?_, fun a ha hf => ?_, I.kind⟩
  · rw [upd_ne (by rintro rfl; have := I.fresh _ ha; rw [o] at this; cases this)]; exact I.fresh a ha
  · dsimp only at hc
    by_cases hi : i = h
    · subst hi; rw [upd_same] at hc; cases hc
    · rw [upd_ne hi] at hc
      obtain ⟨h1, h2⟩ := I.sec i c hc
      exact ⟨by rw [upd_ne (by intro he; rw [he, o] at h1; cases h1; exact hi rfl)]; exact h1, ⟨h2.1, h2.2, h2.3⟩⟩
  · by_cases hn : a = b.addr
    · rw [hn, upd_same] at ha; cases ha
    · rw [upd_ne hn] at ha
      obtain ⟨c, h1, h2⟩ := I.secOwn a i ha
      refine ⟨c, ?_, h2⟩
      dsimp only
      rw [upd_ne (by rintro rfl; rw [hs] at h1; cases h1; exact hn h2.symm)]; exact h1
  · dsimp only
    by_cases hi' : i = h
    · subst hi'; exact upd_same ..
    · rw [upd_ne hi']; exact I.count i hi
  · obtain ⟨g1, g2, g3, g4⟩ := I.pool t' m c hc
    exact ⟨by rw [upd_ne (by intro he; rw [he, o] at g1; cases g1)]; exact g1, ⟨g2.1, g2.2, g2.3⟩, g3, g4⟩
  · by_cases hn : a = b.addr
    · rw [hn, upd_same] at ha; cases ha
    · rw [upd_ne hn] at ha; exact I.poolOwn a t' ha
  · cases hc; exact ⟨upd_same .., ⟨g.1, g.2, g.3⟩⟩
  · by_cases hn : a = b.addr
    · exact ⟨b, rfl, hn.symm⟩
    · rw [upd_ne hn] at ha; obtain ⟨_, h, _⟩ := I.handOwn a ha; cases h
  · by_cases hn : a = b.addr
    · rw [hn, upd_same] at hf; cases hf
    · rw [upd_ne hn] at hf; exact I.free a ha hf

/-- the box in hand becomes a secret -/
theorem enter_inv {own : Nat → Own} {s : St} {b : Box} (I : Inv own (some b) s) :
    Inv (upd own b.addr (.secret s.count)) none (s.enter b).2 := by
  obtain ⟨o, g⟩ := I.handOk b rfl
  unfold St.enter
  refine ⟨I.fault, fun a ha => ?_, fun i c hc => ?_, fun a i ha => ?_, fun i hi => ?_, fun t' m c hc => ?_, fun a t' ha => ?_, I.nodup, fun c hc => (by cases hc), fun a ha => ?_, fun a ha hf => ?_, I.kind⟩
  · rw [upd_ne (by rintro rfl; have := I.fresh _ ha; rw [o] at this; cases this)]; exact I.fresh a ha
  · dsimp only at hc
    by_cases hi : i = s.count
    · subst hi; rw [upd_same] at hc; cases hc; exact ⟨upd_same .., ⟨g.1, g.2, g.3⟩⟩
    · rw [upd_ne hi] at hc
      obtain ⟨h1, h2⟩ := I.sec i c hc
      exact ⟨by rw [upd_ne (by intro he; rw [he, o] at h1; cases h1)]; exact h1, ⟨h2.1, h2.2, h2.3⟩⟩
  · dsimp only
    by_cases hn : a = b.addr
    · rw [hn, upd_same] at ha; cases ha; exact ⟨b, upd_same .., hn.symm⟩
    · rw [upd_ne hn] at ha
      obtain ⟨c, h1, h2⟩ := I.secOwn a i ha
      refine ⟨c, ?_, h2⟩
      rw [upd_ne (by rintro rfl; rw [I.count _ (Nat.le_refl _)] at h1; cases h1)]; exact h1
  · dsimp only at hi ⊢
    rw [upd_ne (by omega)]; exact I.count i (by omega)
  · obtain ⟨g1, g2, g3, g4⟩ := I.pool t' m c hc
    exact ⟨by rw [upd_ne (by intro he; rw [he, o] at g1; cases g1)]; exact g1, ⟨g2.1, g2.2, g2.3⟩, g3, g4⟩
  · by_cases hn : a = b.addr
    · rw [hn, upd_same] at ha; cases ha
    · rw [upd_ne hn] at ha; exact I.poolOwn a t' ha
  · by_cases hn : a = b.addr
    · rw [hn, upd_same] at ha; cases ha
    · rw [upd_ne hn] at ha; obtain ⟨c, h, h2⟩ := I.handOwn a ha; cases h; exact absurd h2.symm hn
  · by_cases hn : a = b.addr
    · rw [hn, upd_same] at hf; cases hf
    · rw [upd_ne hn] at hf; exact I.free a ha hf

/-- the box in hand goes to a pool -/
theorem release_inv {own : Nat → Own} {s : St} {b : Box} (t : Nat) (I : Inv own (some b) s) :
    Inv (upd own b.addr (.pool t)) none (s.release t b.len b) ∧ (s.release t b.len b).secrets = s.secrets ∧ (s.release t b.len b).count = s.count ∧
      ∀ a, a ≠ b.addr → (s.release t b.len b).mem a = s.mem a := by
  obtain ⟨o, g⟩ := I.handOk b rfl
  obtain ⟨e, J, g'⟩ := write_inv I g (zeros_length b.len) (.inl o)
  have hz : ((s.write b (zeros b.len)).mem b.addr).bytes = zeros b.len := by rw [e]; simp [upd]
  have hp : (s.write b (zeros b.len)).pool = s.pool := by rw [e]
  have hse : (s.write b (zeros b.len)).secrets = s.secrets := by rw [e]
  have hco : (s.write b (zeros b.len)).count = s.count := by rw [e]
  have hm : ∀ a, a ≠ b.addr → (s.write b (zeros b.len)).mem a = s.mem a := by intro a ha; rw [e]; exact upd_ne ha
  unfold St.release
  dsimp only
  unfold St.zero
  refine ⟨?_, hse, hco, hm⟩
  generalize hq : s.write b (zeros b.len) = q at J g' hz hp hse hco hm ⊢
  clear hq e hse hco hm
  clear I
  have I := J
  have o := (I.handOk b rfl).1
  have notin : ∀ t' m c, (m, c) ∈ q.pool t' → c.addr ≠ b.addr := by
    intro t' m c hc he
    have := (I.pool t' m c hc).1
    rw [he, o] at this; cases this
  refine ⟨I.fault, fun a ha => ?_, fun i c hc => ?_, fun a i ha => ?_, I.count, fun t' m c hc => ?_, fun a t' ha => ?_, fun t' => ?_, fun c hc => (by cases hc), fun a ha => ?_, fun a ha hf => ?_, I.kind⟩
  · rw [upd_ne (by rintro rfl; have := I.fresh _ ha; rw [o] at this; cases this)]; exact I.fresh a ha
  · obtain ⟨h1, h2⟩ := I.sec i c hc
    exact ⟨by rw [upd_ne (by intro he; rw [he, o] at h1; cases h1)]; exact h1, ⟨h2.1, h2.2, h2.3⟩⟩
  · by_cases hn : a = b.addr
    · rw [hn, upd_same] at ha; cases ha
    · rw [upd_ne hn] at ha; exact I.secOwn a i ha
  · dsimp only at hc ⊢
    have old : (m, c) ∈ q.pool t' → upd own b.addr (.pool t) c.addr = .pool t' ∧ Good { q with pool := upd q.pool t ((b.len, b) :: q.pool t) } c ∧ m = c.len ∧ (q.mem c.addr).bytes = zeros m := by
      intro h
      obtain ⟨g1, g2, g3, g4⟩ := I.pool t' m c h
      exact ⟨by rw [upd_ne (notin t' m c h)]; exact g1, ⟨g2.1, g2.2, g2.3⟩, g3, g4⟩
    by_cases ht : t' = t
    · subst ht
      rw [upd_same] at hc
      rcases List.mem_cons.mp hc with hc | hc
      · cases hc; exact ⟨upd_same .., ⟨g'.1, g'.2, g'.3⟩, rfl, hz⟩
      · exact old hc
    · rw [upd_ne ht] at hc; exact old hc
  · dsimp only
    by_cases hn : a = b.addr
    · rw [hn, upd_same] at ha; cases ha; exact ⟨b.len, b, by rw [upd_same]; simp, hn.symm⟩
    · rw [upd_ne hn] at ha
      obtain ⟨m, c, h1, h2⟩ := I.poolOwn a t' ha
      refine ⟨m, c, ?_, h2⟩
      by_cases ht : t' = t
      · subst ht; rw [upd_same]; exact List.mem_cons_of_mem _ h1
      · rw [upd_ne ht]; exact h1
  · dsimp only
    by_cases ht : t' = t
    · subst ht
      rw [upd_same, List.map_cons]
      refine List.nodup_cons.mpr ⟨fun hm => ?_, I.nodup t'⟩
      obtain ⟨⟨m, c⟩, h1, h2⟩ := List.mem_map.mp hm
      exact notin t' m c h1 h2
    · rw [upd_ne ht]; exact I.nodup t'
  · by_cases hn : a = b.addr
    · rw [hn, upd_same] at ha; cases ha
    · rw [upd_ne hn] at ha; obtain ⟨c, h, h2⟩ := I.handOwn a ha; cases h; exact absurd h2.symm hn
  · by_cases hn : a = b.addr
    · rw [hn, upd_same] at hf; cases hf
    · rw [upd_ne hn] at hf; exact I.free a ha hf

/-- the box in hand is dropped -/
theorem dropBox_inv {own : Nat → Own} {s : St} {b : Box} (I : Inv own (some b) s) :
    Inv (upd own b.addr .free) none (s.dropBox b) ∧ (∃ m, s.dropBox b = { s with mem := m }) ∧ ∀ a, a ≠ b.addr → (s.dropBox b).mem a = s.mem a := by
  obtain ⟨o, g⟩ := I.handOk b rfl
  obtain ⟨e, J, g'⟩ := write_inv I g (zeros_length b.len) (.inl o)
  have e2 : s.dropBox b = { s with mem := upd s.mem b.addr ⟨b.kind, zeros b.len, true⟩ } := by
    unfold St.dropBox St.zero St.free
    dsimp only
    rw [if_pos ⟨g'.live, g'.kind, g'.len⟩, e]
    dsimp only
    rw [upd_same]
    congr 1
    funext a
    unfold upd
    split <;> rfl
  refine ⟨?_, ⟨_, e2⟩, fun a ha => by rw [e2]; exact upd_ne ha⟩
  rw [e2]
  have good : ∀ c : Box, Good s c → c.addr ≠ b.addr → Good { s with mem := upd s.mem b.addr ⟨b.kind, zeros b.len, true⟩ } c := by
    intro c gc hc
    constructor <;> simp [upd, hc, gc.live, gc.len, gc.kind]
  refine ⟨I.fault, fun a ha => ?_, fun i c hc => ?_, fun a i ha => ?_, I.count, fun t' m c hc => ?_, fun a t' ha => ?_, I.nodup, fun c hc => (by cases hc), fun a ha => ?_, fun a ha hf => ?_, fun a ha => ?_⟩
  · rw [upd_ne (by rintro rfl; have := I.fresh _ ha; rw [o] at this; cases this)]; exact I.fresh a ha
  · obtain ⟨h1, h2⟩ := I.sec i c hc
    have hne : c.addr ≠ b.addr := by intro he; rw [he, o] at h1; cases h1
    exact ⟨by rw [upd_ne hne]; exact h1, good c h2 hne⟩
  · by_cases hn : a = b.addr
    · rw [hn, upd_same] at ha; cases ha
    · rw [upd_ne hn] at ha; exact I.secOwn a i ha
  · obtain ⟨g1, g2, g3, g4⟩ := I.pool t' m c hc
    have hne : c.addr ≠ b.addr := by intro he; rw [he, o] at g1; cases g1
    exact ⟨by rw [upd_ne hne]; exact g1, good c g2 hne, g3, by dsimp only; rw [upd_ne hne]; exact g4⟩
  · by_cases hn : a = b.addr
    · rw [hn, upd_same] at ha; cases ha
    · rw [upd_ne hn] at ha; exact I.poolOwn a t' ha
  · by_cases hn : a = b.addr
    · rw [hn, upd_same] at ha; cases ha
    · rw [upd_ne hn] at ha; obtain ⟨c, h, h2⟩ := I.handOwn a ha; cases h; exact absurd h2.symm hn
  · dsimp only at ha ⊢
    by_cases hn : a = b.addr
    · rw [hn, upd_same]; simp [zeros]
    · rw [upd_ne hn] at hf ⊢; exact I.free a ha hf
  · dsimp only at ha ⊢
    by_cases hn : a = b.addr
    · subst hn; rw [upd_same, I.kind _ ha, g.kind]
    · rw [upd_ne hn]; exact I.kind a ha

theorem content_frame {s s' : St} {P : Nat → Prop} (h1 : s'.secrets = s.secrets) (hm : ∀ a, P a → s'.mem a = s.mem a)
    (hp : ∀ h b, s.secrets h = some b → P b.addr) : s'.content = s.content := by
  funext h
  unfold St.content
  rw [h1]
  cases hs : s.secrets h with
  | none => rfl
  | some b => dsimp only [Option.map]; rw [hm _ (hp h b hs)]

/-- A buffer for a new secret: it is zero, whatever was in that memory. -/
theorem newBuf_inv {own : Nat → Own} {s s' : St} {t n : Nat} {busy : Bool} {b : Box} (I : Inv own none s) (h : s.newBuf t busy n = some (b, s')) :
    b.len = n ∧ (s'.mem b.addr).bytes = zeros n ∧ (∃ own', Inv own' (some b) s') ∧ s'.count = s.count ∧ s'.policy = s.policy ∧ s'.content = s.content := by
  have al : s.alloc (zeros n) = some (b, s') → b.len = n ∧ (s'.mem b.addr).bytes = zeros n ∧ (∃ own', Inv own' (some b) s') ∧ s'.count = s.count ∧ s'.policy = s.policy ∧ s'.content = s.content := by
    intro h
    obtain ⟨h1, h2, h3, h4, h5, h6⟩ := alloc_inv I h
    refine ⟨by rw [h1, zeros_length], h2, ⟨_, h3⟩, h5, ?_, content_frame (P := fun a => a < s.next) h4 h6 ?_⟩
    · unfold St.alloc at h; split at h <;> cases h; rfl
    · intro i c hc; exact I.lt (by rw [(I.sec i c hc).1]; simp)
  unfold St.newBuf at h
  split at h
  rotate_left
  · exact al h
  unfold St.take at h
  split at h
  · exact al h
  rename_i c l hp
  obtain ⟨l1, l2, e1, e2⟩ := popSize_spec hp
  have hz := (I.pool t n c (by rw [e1]; simp)).2.2.2
  split at h
  rotate_left
  · cases h
  rename_i hl
  cases h
  subst e2
  exact ⟨hl, hz, ⟨_, unpool_inv I e1⟩, rfl, rfl, rfl⟩

theorem newBuf_none {own : Nat → Own} {s : St} {t n : Nat} {busy : Bool} (I : Inv own none s) (h : s.newBuf t busy n = none) : s.policy = none := by
  have al : s.alloc (zeros n) = none → s.policy = none := by
    intro h; unfold St.alloc at h; split at h
    · assumption
    · cases h
  unfold St.newBuf at h
  split at h
  rotate_left
  · exact al h
  unfold St.take at h
  split at h
  · exact al h
  rename_i c l hp
  obtain ⟨l1, l2, e1, e2⟩ := popSize_spec hp
  have hz := (I.pool t n c (by rw [e1]; simp)).2.2.1
  rw [if_pos hz.symm] at h
  cases h

/-- memory exists only after a policy was chosen -/
theorem newBuf_some {own : Nat → Own} {s s' : St} {t n : Nat} {busy : Bool} {b : Box} (I : Inv own none s) (h : s.newBuf t busy n = some (b, s')) : s.policy ≠ none := by
  have al : s.alloc (zeros n) = some (b, s') → s.policy ≠ none := by
    intro h hn; unfold St.alloc at h; rw [hn] at h; cases h
  unfold St.newBuf at h
  split at h
  rotate_left
  · exact al h
  unfold St.take at h
  split at h
  · exact al h
  rename_i c l hp
  obtain ⟨l1, l2, e1, e2⟩ := popSize_spec hp
  have := I.kind c.addr (I.lt (by rw [(I.pool t n c (by rw [e1]; simp)).1]; simp))
  rw [this]; simp

theorem dropStorage_inv {own : Nat → Own} {s : St} {t : Nat} {busy : Bool} {b : Box} (I : Inv own (some b) s) :
    (∃ own', Inv own' none (s.dropStorage t busy b.len b)) ∧ (s.dropStorage t busy b.len b).content = s.content ∧
      (s.dropStorage t busy b.len b).secrets = s.secrets ∧ (s.dropStorage t busy b.len b).count = s.count := by
  have hp : ∀ i c, s.secrets i = some c → c.addr ≠ b.addr := by
    intro i c hc he
    have h1 := (I.sec i c hc).1
    rw [he, (I.handOk b rfl).1] at h1; cases h1
  unfold St.dropStorage
  split
  · obtain ⟨h1, h2, h3, h4⟩ := release_inv t I
    exact ⟨⟨_, h1⟩, content_frame (P := fun a => a ≠ b.addr) h2 h4 hp, h2, h3⟩
  · obtain ⟨h1, ⟨m, h2⟩, h3⟩ := dropBox_inv I
    exact ⟨⟨_, h1⟩, content_frame (P := fun a => a ≠ b.addr) (by rw [h2]) h3 hp, by rw [h2], by rw [h2]⟩

theorem write_content {own : Nat → Own} {hand : Option Box} {s : St} {b : Box} {v : Bytes} {h : Nat} (I : Inv own hand s) (hs : s.secrets h = some b) (hv : v.length = b.len) :
    Inv own hand (s.write b v) ∧ (s.write b v).content = put s.content h (some v) ∧ (s.write b v).secrets = s.secrets := by
  obtain ⟨o, g⟩ := I.sec h b hs
  obtain ⟨e, J, g'⟩ := write_inv I g hv (.inr ⟨h, o⟩)
  refine ⟨J, ?_, by rw [e]⟩
  rw [e]
  funext i
  unfold St.content put
  dsimp only
  split
  · rename_i hi; subst hi; rw [hs]; simp [upd]
  · rename_i hi
    cases hc : s.secrets i with
    | none => rfl
    | some c =>
      dsimp only [Option.map]
      rw [upd_ne]
      intro he
      have h1 := (I.sec i c hc).1
      rw [he, o] at h1; cases h1; exact hi rfl

theorem write_hand {own : Nat → Own} {s : St} {b : Box} {v : Bytes} (I : Inv own (some b) s) (hv : v.length = b.len) :
    Inv own (some b) (s.write b v) ∧ (s.write b v).content = s.content ∧ ((s.write b v).mem b.addr).bytes = v ∧ (s.write b v).count = s.count := by
  obtain ⟨o, g⟩ := I.handOk b rfl
  obtain ⟨e, J, g'⟩ := write_inv I g hv (.inl o)
  refine ⟨J, ?_, by rw [e]; simp [upd], by rw [e]⟩
  rw [e]
  refine content_frame (P := fun a => a ≠ b.addr) rfl (fun a ha => upd_ne ha) ?_
  intro i c hc he
  have h1 := (I.sec i c hc).1
  rw [he, o] at h1; cases h1

theorem enter_content {own : Nat → Own} {s : St} {b : Box} (I : Inv own (some b) s) :
    (∃ own', Inv own' none (s.enter b).2) ∧ (s.enter b).1 = .created s.count ∧ (s.enter b).2.content = put s.content s.count (some (s.mem b.addr).bytes) := by
  refine ⟨⟨_, enter_inv I⟩, rfl, ?_⟩
  funext i
  unfold St.content put St.enter upd
  dsimp only
  split <;> rfl

/-- what is to be shown of an operation -/
structure StepOk (s : St) (op : Op) (r : Out × St) : Prop where
  inv : ∃ own, Inv own none r.2
  panic : r.1 = .panic ↔ mayPanic s.content s.policy op
  bad : r.1 = .panic → r.2.content = s.content
  good : r.1 ≠ .panic → r.2.content = effect s.content s.count op
  out : r.1 ≠ .panic → creates s.content op → r.1 = .created s.count

theorem not_mayPanic {v : Nat → Option Bytes} {p : Option Kind} {op : Op} (h : mayPanic v p op) (hp : creates v op → p ≠ none)
    (h1 : ∀ t busy n x, op = .fromSlice t busy n x → x.length = n) (h2 : ∀ k, op ≠ .useOnly k) (h3 : ∀ k, op ≠ .tryMemfd k) (h4 : ∀ k, op ≠ .setType k) : False := by
  rcases h with ⟨h, h'⟩ | ⟨t, b, n, x, rfl, hx⟩ | ⟨k, _, rfl, _⟩ | ⟨k, _, rfl, _⟩ | ⟨k, rfl, _⟩
  · exact hp h h'
  · exact hx (h1 _ _ _ _ rfl)
  · exact h2 _ rfl
  · exact h3 _ rfl
  · exact h4 _ rfl

theorem fromSlice_ok {own : Nat → Own} {s : St} (I : Inv own none s) (t : Nat) (busy : Bool) (n : Nat) (v : Bytes) :
    (∃ own', Inv own' none (s.fromSlice t busy n v).2) ∧
    (s.policy = none ∨ v.length ≠ n → (s.fromSlice t busy n v).1 = .panic ∧ (s.fromSlice t busy n v).2.content = s.content) ∧
    (s.policy ≠ none → v.length = n → (s.fromSlice t busy n v).1 = .created s.count ∧ (s.fromSlice t busy n v).2.content = put s.content s.count (some v)) := by
  unfold St.fromSlice
  split
  · rename_i hb
    exact ⟨⟨own, I⟩, fun _ => ⟨rfl, rfl⟩, fun h => absurd (newBuf_none I hb) h⟩
  · rename_i b s' hb
    obtain ⟨h1, h2, ⟨own', J⟩, h4, h5, h6⟩ := newBuf_inv I hb
    have hpol := newBuf_some I hb
    split
    · rename_i hv
      obtain ⟨J2, e1, e2, e3⟩ := write_hand (v := v) J (by rw [hv, h1])
      obtain ⟨J3, e4, e5⟩ := enter_content J2
      refine ⟨J3, fun h => ?_, fun _ _ => ⟨by rw [e4, e3, h4], by rw [e5, e1, e2, e3, h4, h6]⟩⟩
      rcases h with h | h
      · exact absurd h hpol
      · exact absurd hv h
    · rename_i hv
      subst h1
      obtain ⟨J2, e1, e2⟩ := dropStorage_inv (t := t) (busy := busy) J
      exact ⟨J2, fun _ => ⟨rfl, by rw [e1, h6]⟩, fun _ h => absurd h hv⟩

theorem choose_ok {own : Nat → Own} {s : St} (I : Inv own none s) (k : Kind) :
    (∃ own', Inv own' none (s.choose k).2) ∧ ((s.choose k).1 = .panic ↔ ∃ k', s.policy = some k' ∧ k ≠ k') ∧ (s.choose k).2.content = s.content := by
  unfold St.choose
  split
  · rename_i hp
    refine ⟨⟨own, ⟨I.fault, I.fresh, fun h b hb => ⟨(I.sec h b hb).1, ⟨(I.sec h b hb).2.1, (I.sec h b hb).2.2, (I.sec h b hb).2.3⟩⟩, I.secOwn, I.count, fun t n b hb => ?_, I.poolOwn, I.nodup, fun b hb => (by cases hb), I.handOwn, I.free, fun a ha => ?_⟩⟩, by simp [hp], rfl⟩
    · obtain ⟨g1, g2, g3, g4⟩ := I.pool t n b hb
      exact ⟨g1, ⟨g2.1, g2.2, g2.3⟩, g3, g4⟩
    · have := I.kind a ha; rw [hp] at this; cases this
  · rename_i k' hp
    split
    · rename_i hk; subst hk; exact ⟨⟨own, I⟩, by simp [hp], rfl⟩
    · rename_i hk; exact ⟨⟨own, I⟩, by simp [hp, hk], rfl⟩

/-- dropping the whole pool of a thread -/
theorem fold_inv {t : Nat} : ∀ (l : List (Nat × Box)) (own : Nat → Own) (s : St), Inv own none { s with pool := upd s.pool t l } →
    ∃ own' m, l.foldl (fun s p => s.dropBox p.2) s = { s with mem := m } ∧ Inv own' none { s with mem := m, pool := upd s.pool t [] } ∧
      ({ s with mem := m, pool := upd s.pool t [] } : St).content = s.content := by
  intro l
  induction l with
  | nil => intro own s I; exact ⟨own, s.mem, rfl, I, rfl⟩
  | cons p l ih =>
    intro own s I
    obtain ⟨n, b⟩ := p
    have J := unpool_inv (l1 := []) (l2 := l) (n := n) (b := b) (t := t) I (by simp [upd])
    have hu : upd (upd s.pool t ((n, b) :: l)) t ([] ++ l) = upd s.pool t l := by funext x; unfold upd; split <;> rfl
    dsimp only at J
    rw [hu] at J
    obtain ⟨K, ⟨m, hm⟩, hf⟩ := dropBox_inv J
    have hd : s.dropBox b = { s with mem := m } := by
      have : ({ s with pool := upd s.pool t l } : St).dropBox b = { s.dropBox b with pool := upd s.pool t l } := by
        unfold St.dropBox St.zero St.write St.free
        dsimp only
        split <;> dsimp only <;> split <;> rfl
      rw [this] at hm
      have g : ∀ x y : St, { x with pool := upd s.pool t l } = { y with pool := upd s.pool t l } → x.pool = y.pool → x = y := by
        intro x y h hp; cases x; cases y; cases hp; injection h; simp_all
      apply g
      · exact hm
      · unfold St.dropBox St.zero St.write St.free; dsimp only; split <;> dsimp only <;> split <;> rfl
    rw [hm] at K hf
    obtain ⟨own', m', e1, e2, e3⟩ := ih _ { s with mem := m } K
    refine ⟨own', m', ?_, e2, ?_⟩
    · rw [List.foldl_cons]; dsimp only; rw [hd, e1]
    · rw [e3]
      refine content_frame (P := fun a => a ≠ b.addr) rfl hf ?_
      intro i c hc he
      have h1 := (J.sec i c hc).1
      rw [he, (J.handOk b rfl).1] at h1; cases h1

theorem step_ok {own : Nat → Own} {s : St} (I : Inv own none s) (op : Op) : StepOk s op (s.step op) := by
  cases op with
  | useOnly k =>
    obtain ⟨h1, h2, h3⟩ := choose_ok I k
    refine ⟨h1, h2.trans ⟨fun ⟨k', h⟩ => .inr (.inr (.inl ⟨k, k', rfl, h⟩)), ?_⟩, fun _ => h3, fun _ => h3, fun _ h => h.elim⟩
    rintro (⟨h, _⟩ | ⟨_, _, _, _, h, _⟩ | ⟨_, k', h, h'⟩ | ⟨_, _, h, _⟩ | ⟨_, h, _⟩) <;> cases h
    exact ⟨k', h'⟩
  | tryMemfd p =>
    obtain ⟨h1, h2, h3⟩ := choose_ok I (if p then .memfd else .malloc)
    refine ⟨h1, h2.trans ⟨fun ⟨k', h⟩ => .inr (.inr (.inr (.inl ⟨p, k', rfl, h⟩))), ?_⟩, fun _ => h3, fun _ => h3, fun _ h => h.elim⟩
    rintro (⟨h, _⟩ | ⟨_, _, _, _, h, _⟩ | ⟨_, k', h, h'⟩ | ⟨_, _, h, h'⟩ | ⟨_, h, _⟩) <;> cases h
    exact ⟨_, h'⟩
  | setType k =>
    obtain ⟨h1, h2, h3⟩ := choose_ok I k
    unfold St.step
    dsimp only
    unfold St.choose at h1
    split
    · rename_i hp
      rw [hp] at h1
      refine ⟨h1, ⟨fun h => (by cases h), ?_⟩, fun h => (by cases h), fun _ => rfl, fun _ h => h.elim⟩
      rintro (⟨h, _⟩ | ⟨_, _, _, _, h, _⟩ | ⟨_, k', h, h'⟩ | ⟨_, _, h, _⟩ | ⟨_, h, h'⟩) <;> cases h
      exact absurd hp h'
    · rename_i k' hp
      exact ⟨⟨own, I⟩, ⟨fun _ => .inr (.inr (.inr (.inr ⟨k, rfl, by simp [hp]⟩))), fun _ => rfl⟩, fun _ => rfl, fun h => absurd rfl h, fun h => absurd rfl h⟩
  | zero t busy n =>
    unfold St.step
    dsimp only
    split
    · rename_i hb
      exact ⟨⟨own, I⟩, ⟨fun _ => .inl ⟨trivial, newBuf_none I hb⟩, fun _ => rfl⟩, fun _ => rfl, fun h => absurd rfl h, fun h => absurd rfl h⟩
    · rename_i b s' hb
      obtain ⟨h1, h2, ⟨own', J⟩, h4, h5, h6⟩ := newBuf_inv I hb
      obtain ⟨J2, e1, e2⟩ := enter_content J
      refine ⟨J2, ⟨fun h => (by rw [e1] at h; cases h), fun h => (not_mayPanic h (fun _ => newBuf_some I hb) nofun nofun nofun nofun).elim⟩, fun h => (by rw [e1] at h; cases h), fun _ => ?_, fun _ _ => by rw [e1, h4]⟩
      rw [e2, h2, h4, h6]; rfl
  | fromSlice t busy n v =>
    obtain ⟨h1, h2, h3⟩ := fromSlice_ok I t busy n v
    have e : s.step (.fromSlice t busy n v) = s.fromSlice t busy n v := rfl
    rw [e]
    by_cases hp : s.policy = none ∨ v.length ≠ n
    · obtain ⟨e1, e2⟩ := h2 hp
      refine ⟨h1, ⟨fun _ => ?_, fun _ => e1⟩, fun _ => e2, fun h => absurd e1 h, fun h => absurd e1 h⟩
      rcases hp with hp | hp
      · exact .inl ⟨trivial, hp⟩
      · exact .inr (.inl ⟨t, busy, n, v, rfl, hp⟩)
    · have hpn : s.policy ≠ none := fun h => hp (.inl h)
      have hv : v.length = n := Classical.not_not.mp fun h => hp (.inr h)
      obtain ⟨e1, e2⟩ := h3 hpn hv
      exact ⟨h1, ⟨fun h => (by rw [e1] at h; cases h), fun h => (not_mayPanic h (fun _ => hpn) (by rintro _ _ _ _ h; cases h; exact hv) nofun nofun nofun).elim⟩, fun h => (by rw [e1] at h; cases h), fun _ => e2, fun _ _ => e1⟩
  | random t busy n r =>
    unfold St.step
    dsimp only
    split
    · rename_i hb
      exact ⟨⟨own, I⟩, ⟨fun _ => .inl ⟨trivial, newBuf_none I hb⟩, fun _ => rfl⟩, fun _ => rfl, fun h => absurd rfl h, fun h => absurd rfl h⟩
    · rename_i b s' hb
      obtain ⟨h1, h2, ⟨own', J⟩, h4, h5, h6⟩ := newBuf_inv I hb
      obtain ⟨J1, a1, a2, a3⟩ := write_hand (v := zeros b.len) J (zeros_length _)
      obtain ⟨J2, b1, b2, b3⟩ := write_hand (v := bytesOf n r) J1 (by rw [bytesOf_length, h1])
      obtain ⟨J3, e1, e2⟩ := enter_content J2
      unfold St.zero
      refine ⟨J3, ⟨fun h => (by rw [e1] at h; cases h), fun h => (not_mayPanic h (fun _ => newBuf_some I hb) nofun nofun nofun nofun).elim⟩, fun h => (by rw [e1] at h; cases h), fun _ => ?_, fun _ _ => by rw [e1, b3, a3, h4]⟩
      rw [e2, b2, b3, a3, h4, b1, a1, h6]; rfl
  | clone t busy h =>
    unfold St.step
    dsimp only
    cases hs : s.secrets h with
    | none =>
      dsimp only
      have hc : s.content h = none := by unfold St.content; rw [hs]; rfl
      refine ⟨⟨own, I⟩, ⟨nofun, fun h' => (not_mayPanic h' (fun h'' => absurd hc h'') nofun nofun nofun nofun).elim⟩, nofun, fun _ => ?_, fun _ h'' => absurd hc h''⟩
      dsimp only [effect]; rw [hc]
    | some b =>
      dsimp only
      have hc : s.content h = some (s.mem b.addr).bytes := by unfold St.content; rw [hs]; rfl
      have hl := (I.sec h b hs).2.len
      obtain ⟨h1, h2, h3⟩ := fromSlice_ok I t busy b.len (s.mem b.addr).bytes
      by_cases hp : s.policy = none
      · obtain ⟨e1, e2⟩ := h2 (.inl hp)
        exact ⟨h1, ⟨fun _ => .inl ⟨by dsimp only [creates]; rw [hc]; simp, hp⟩, fun _ => e1⟩, fun _ => e2, fun h => absurd e1 h, fun h => absurd e1 h⟩
      · obtain ⟨e1, e2⟩ := h3 hp hl
        refine ⟨h1, ⟨fun h => (by rw [e1] at h; cases h), fun h => (not_mayPanic h (fun _ => hp) nofun nofun nofun nofun).elim⟩, fun h => (by rw [e1] at h; cases h), fun _ => ?_, fun _ _ => e1⟩
        rw [e2]; dsimp only [effect]; rw [hc]
  | write h f =>
    unfold St.step
    dsimp only
    cases hs : s.secrets h with
    | none =>
      have hc : s.content h = none := by unfold St.content; rw [hs]; rfl
      exact ⟨⟨own, I⟩, ⟨nofun, fun h' => (not_mayPanic h' (fun h'' => h''.elim) nofun nofun nofun nofun).elim⟩, nofun, fun _ => (by dsimp only [effect]; rw [hc]), fun _ h => h.elim⟩
    | some b =>
      have hc : s.content h = some (s.mem b.addr).bytes := by unfold St.content; rw [hs]; rfl
      have hl := (I.sec h b hs).2.len
      obtain ⟨J, e, _⟩ := write_content (v := bytesOf b.len f) I hs (bytesOf_length _ _)
      refine ⟨⟨own, J⟩, ⟨nofun, fun h' => (not_mayPanic h' (fun h'' => h''.elim) nofun nofun nofun nofun).elim⟩, nofun, fun _ => ?_, fun _ h => h.elim⟩
      rw [e]; dsimp only [effect]; rw [hc]; dsimp only; rw [hl]
  | randomize h r =>
    unfold St.step
    dsimp only
    cases hs : s.secrets h with
    | none =>
      have hc : s.content h = none := by unfold St.content; rw [hs]; rfl
      exact ⟨⟨own, I⟩, ⟨nofun, fun h' => (not_mayPanic h' (fun h'' => h''.elim) nofun nofun nofun nofun).elim⟩, nofun, fun _ => (by dsimp only [effect]; rw [hc]), fun _ h => h.elim⟩
    | some b =>
      have hc : s.content h = some (s.mem b.addr).bytes := by unfold St.content; rw [hs]; rfl
      have hl := (I.sec h b hs).2.len
      obtain ⟨J, e, e'⟩ := write_content (v := zeros b.len) I hs (zeros_length _)
      obtain ⟨J2, e2, _⟩ := write_content (v := bytesOf b.len r) (h := h) J (by rw [e']; exact hs) (bytesOf_length _ _)
      unfold St.zero
      refine ⟨⟨own, J2⟩, ⟨nofun, fun h' => (not_mayPanic h' (fun h'' => h''.elim) nofun nofun nofun nofun).elim⟩, nofun, fun _ => ?_, fun _ h => h.elim⟩
      rw [e2, e]; dsimp only [effect]; rw [hc]; dsimp only; rw [hl]
      funext i; unfold put; split <;> rfl
  | zeroize h =>
    unfold St.step
    dsimp only
    cases hs : s.secrets h with
    | none =>
      have hc : s.content h = none := by unfold St.content; rw [hs]; rfl
      exact ⟨⟨own, I⟩, ⟨nofun, fun h' => (not_mayPanic h' (fun h'' => h''.elim) nofun nofun nofun nofun).elim⟩, nofun, fun _ => (by dsimp only [effect]; rw [hc]), fun _ h => h.elim⟩
    | some b =>
      have hc : s.content h = some (s.mem b.addr).bytes := by unfold St.content; rw [hs]; rfl
      have hl := (I.sec h b hs).2.len
      obtain ⟨J, e, _⟩ := write_content (v := zeros b.len) I hs (zeros_length _)
      unfold St.zero
      refine ⟨⟨own, J⟩, ⟨nofun, fun h' => (not_mayPanic h' (fun h'' => h''.elim) nofun nofun nofun nofun).elim⟩, nofun, fun _ => ?_, fun _ h => h.elim⟩
      rw [e]; dsimp only [effect]; rw [hc]; dsimp only; rw [hl]
  | drop t busy h =>
    unfold St.step
    dsimp only
    cases hs : s.secrets h with
    | none =>
      have hc : s.content h = none := by unfold St.content; rw [hs]; rfl
      refine ⟨⟨own, I⟩, ⟨nofun, fun h' => (not_mayPanic h' (fun h'' => h''.elim) nofun nofun nofun nofun).elim⟩, nofun, fun _ => ?_, fun _ h => h.elim⟩
      show s.content = effect s.content s.count _; dsimp only [effect]; funext i; unfold put; split
      · rename_i hi; rw [hi]; exact hc
      · rfl
    | some b =>
      have J := unsecret_inv I hs
      obtain ⟨⟨own', K⟩, e1, e2, e3⟩ := dropStorage_inv (t := t) (busy := busy) J
      have hq : ({ s.dropStorage t busy b.len b with secrets := upd s.secrets h none } : St) = ({ s with secrets := upd s.secrets h none } : St).dropStorage t busy b.len b := by
        unfold St.dropStorage St.avail St.release St.dropBox St.zero St.free St.write
        dsimp only
        split
        · split <;> rfl
        · split <;> dsimp only <;> split <;> rfl
      dsimp only
      rw [hq]
      refine ⟨⟨own', K⟩, ⟨nofun, fun h' => (not_mayPanic h' (fun h'' => h''.elim) nofun nofun nofun nofun).elim⟩, nofun, fun _ => ?_, fun _ h => h.elim⟩
      dsimp only
      rw [e1]
      dsimp only [effect]; funext i; unfold put St.content upd; dsimp only; split <;> rfl
  | threadEnds t =>
    unfold St.step
    dsimp only
    have hu : upd s.pool t (s.pool t) = s.pool := by funext x; unfold upd; split <;> simp_all
    obtain ⟨own', m, e1, e2, e3⟩ := fold_inv (t := t) (s.pool t) own s (by rw [hu]; exact I)
    rw [e1]
    refine ⟨⟨own', ⟨e2.fault, e2.fresh, fun h b hb => ?_, e2.secOwn, e2.count, fun t n b hb => ?_, e2.poolOwn, e2.nodup, nofun, e2.handOwn, e2.free, e2.kind⟩⟩, ⟨nofun, fun h' => (not_mayPanic h' (fun h'' => h''.elim) nofun nofun nofun nofun).elim⟩, nofun, fun _ => e3, fun _ h => h.elim⟩
    · obtain ⟨g1, g2⟩ := e2.sec h b hb
      exact ⟨g1, ⟨g2.1, g2.2, g2.3⟩⟩
    · obtain ⟨g1, g2, g3, g4⟩ := e2.pool t n b hb
      exact ⟨g1, ⟨g2.1, g2.2, g2.3⟩, g3, g4⟩

theorem start_inv : Inv (fun _ => .free) none St.start := by
  constructor <;> simp [St.start]

theorem inv {s : St} (h : Reachable s) : ∃ own, Inv own none s := by
  induction h with
  | start => exact ⟨_, start_inv⟩
  | step op _ ih => obtain ⟨own, I⟩ := ih; exact (step_ok I op).inv

/-! ## Theorems -/

/-- C57: a new secret is all zero, whatever secrets were dropped before, on whichever thread; creating it does not panic once a policy is chosen. -/
theorem new_secret_is_zero {s : St} (h : Reachable s) (hp : s.policy ≠ none) (t : Nat) (busy : Bool) (n : Nat) :
    ∃ i s', s.step (.zero t busy n) = (.created i, s') ∧ s.content i = none ∧ s'.content i = some (List.replicate n 0) := by
  obtain ⟨own, I⟩ := inv h
  have S := step_ok I (.zero t busy n)
  have hn : (s.step (.zero t busy n)).1 ≠ .panic := fun h => not_mayPanic (S.panic.mp h) (fun _ => hp) nofun nofun nofun nofun
  refine ⟨s.count, (s.step (.zero t busy n)).2, ?_, ?_, ?_⟩
  · rw [← S.out hn trivial]
  · unfold St.content; rw [I.count _ (Nat.le_refl _)]; rfl
  · rw [S.good hn]; simp [effect, put, zeros]

/-- C57: memory that does not belong to an existing secret contains only zeros: buffers in the pools, and memory given back to the allocator. -/
theorem no_secret_bytes_left {s : St} (h : Reachable s) (a : Nat) (ha : a < s.next) (hf : ∀ i b, s.secrets i = some b → b.addr ≠ a) :
    ∀ x ∈ (s.mem a).bytes, x = 0 := by
  obtain ⟨own, I⟩ := inv h
  have z : ∀ n, (s.mem a).bytes = zeros n → ∀ x ∈ (s.mem a).bytes, x = 0 := by
    intro n hn x hx; rw [hn] at hx; exact List.eq_of_mem_replicate hx
  cases ho : own a with
  | free => exact z _ (I.free a ha ho).2
  | hand => obtain ⟨b, hb, _⟩ := I.handOwn a ho; cases hb
  | pool t =>
    obtain ⟨n, b, h1, h2⟩ := I.poolOwn a t ho
    subst h2
    exact z n (I.pool t n b h1).2.2.2
  | secret i => obtain ⟨b, h1, h2⟩ := I.secOwn a i ho; exact absurd h2 (hf i b h1)

/-- C81: secrets are independent values: every operation has its effect on the named secret, and no effect on any other, and it
panics exactly if no policy was chosen, a slice has the wrong length, or a second policy contradicts the first. -/
theorem secrets_behave_as_values {s : St} (h : Reachable s) (op : Op) :
    ((s.step op).1 = .panic ↔ mayPanic s.content s.policy op) ∧
    ((s.step op).1 = .panic → (s.step op).2.content = s.content) ∧
    ((s.step op).1 ≠ .panic → (s.step op).2.content = effect s.content s.count op) ∧
    ((s.step op).1 ≠ .panic → creates s.content op → (s.step op).1 = .created s.count) ∧ s.content s.count = none := by
  obtain ⟨own, I⟩ := inv h
  have S := step_ok I op
  exact ⟨S.panic, S.bad, S.good, S.out, by unfold St.content; rw [I.count _ (Nat.le_refl _)]; rfl⟩

/-- C82: no block is used after it was given back, given back twice or given to the other allocator, and all memory comes from the allocator of the policy;
blocks not given back belong to exactly one secret or lie in exactly one place of one pool. -/
theorem memory_is_sound {s : St} (h : Reachable s) :
    s.fault = false ∧ (∀ a, a < s.next → s.policy = some (s.mem a).kind) ∧
    (∀ i j b c, s.secrets i = some b → s.secrets j = some c → b.addr = c.addr → i = j) ∧
    (∀ i b t n c, s.secrets i = some b → (n, c) ∈ s.pool t → b.addr ≠ c.addr) ∧
    (∀ a, a < s.next → (s.mem a).freed = false → (∃ i b, s.secrets i = some b ∧ b.addr = a) ∨ ∃ t n b, (n, b) ∈ s.pool t ∧ b.addr = a) := by
  obtain ⟨own, I⟩ := inv h
  refine ⟨I.fault, I.kind, fun i j b c hb hc he => ?_, fun i b t n c hb hc he => ?_, fun a ha hf => ?_⟩
  · have h1 := (I.sec i b hb).1
    rw [he, (I.sec j c hc).1] at h1
    cases h1; rfl
  · have h1 := (I.sec i b hb).1
    rw [he, (I.pool t n c hc).1] at h1
    cases h1
  · cases ho : own a with
    | free => rw [(I.free a ha ho).1] at hf; cases hf
    | hand => obtain ⟨b, hb, _⟩ := I.handOwn a ho; cases hb
    | pool t => obtain ⟨n, b, h1, h2⟩ := I.poolOwn a t ho; exact .inr ⟨t, n, b, h1, h2⟩
    | secret i => obtain ⟨b, h1, h2⟩ := I.secOwn a i ho; exact .inl ⟨i, b, h1, h2⟩

/-- C82: once chosen, the policy stays. -/
theorem policy_stays {s : St} {k : Kind} (hp : s.policy = some k) (op : Op) : (s.step op).2.policy = some k := by
  have wr : ∀ (q : St) b v, (q.write b v).policy = q.policy := by intro q b v; unfold St.write; dsimp only; split <;> rfl
  have fr : ∀ (q : St) b, (q.free b).policy = q.policy := by intro q b; unfold St.free; dsimp only; split <;> rfl
  have db : ∀ (q : St) b, (q.dropBox b).policy = q.policy := by intro q b; unfold St.dropBox St.zero; rw [fr, wr]
  have ds : ∀ (q : St) t busy n b, (q.dropStorage t busy n b).policy = q.policy := by
    intro q t busy n b; unfold St.dropStorage; split
    · unfold St.release St.zero; dsimp only; rw [wr]
    · exact db q b
  have al : ∀ (q q' : St) v b, q.alloc v = some (b, q') → q'.policy = q.policy := by
    intro q q' v b h; unfold St.alloc at h; split at h <;> cases h; rfl
  have nb : ∀ (q q' : St) t busy n b, q.newBuf t busy n = some (b, q') → q'.policy = q.policy := by
    intro q q' t busy n b h
    unfold St.newBuf St.take at h
    split at h
    · split at h
      · exact al _ _ _ _ h
      · split at h <;> cases h; rfl
    · exact al _ _ _ _ h
  have fs : ∀ (q : St) t busy n v, (q.fromSlice t busy n v).2.policy = q.policy := by
    intro q t busy n v
    unfold St.fromSlice
    split
    · rfl
    · rename_i b q' hb
      split
      · unfold St.enter; dsimp only; rw [wr, nb _ _ _ _ _ _ hb]
      · dsimp only; rw [ds, nb _ _ _ _ _ _ hb]
  have fo : ∀ (l : List (Nat × Box)) (q : St), (l.foldl (fun s p => s.dropBox p.2) q).policy = q.policy := by
    intro l; induction l with
    | nil => intro q; rfl
    | cons p l ih => intro q; rw [List.foldl_cons, ih, db]
  unfold St.step
  split
  · unfold St.choose; rw [hp]; dsimp only; split <;> exact hp
  · unfold St.choose; rw [hp]; dsimp only; split <;> (split <;> exact hp)
  · rw [hp]; exact hp
  · split
    · exact hp
    · rename_i b q' hb; unfold St.enter; dsimp only; rw [nb _ _ _ _ _ _ hb]; exact hp
  · rw [fs]; exact hp
  · split
    · exact hp
    · rename_i b q' hb; unfold St.enter St.zero; dsimp only; rw [wr, wr, nb _ _ _ _ _ _ hb]; exact hp
  · split
    · exact hp
    · rw [fs]; exact hp
  · split
    · exact hp
    · dsimp only; rw [wr]; exact hp
  · split
    · exact hp
    · dsimp only [St.zero]; rw [wr, wr]; exact hp
  · split
    · exact hp
    · dsimp only [St.zero]; rw [wr]; exact hp
  · split
    · exact hp
    · dsimp only; rw [ds]; exact hp
  · dsimp only; rw [fo]; exact hp

/-! ## Cases -/

def St.run (s : St) : List Op → St
  | [] => s
  | op :: l => (s.step op).2.run l

theorem run_reachable {s : St} (h : Reachable s) (l : List Op) : Reachable (s.run l) := by
  induction l generalizing s with
  | nil => exact h
  | cons op l ih => exact ih (.step op h)

/-- A secret is written, cloned, dropped; a new secret of the same size reuses its memory and is zero; another thread drops the clone and ends. -/
def demo : List Op := [.useOnly .memfd, .zero 0 false 3, .write 0 (fun i => UInt8.ofNat (7 + i)), .clone 0 false 0, .drop 0 false 0, .zero 0 false 3, .drop 1 false 1, .threadEnds 1]

example : Reachable (St.start.run demo) ∧ (St.start.run demo).content 2 = some [0, 0, 0] ∧ (St.start.run (demo.take 6)).content 1 = some [7, 8, 9] ∧
    (St.start.run demo).next = 2 ∧ ((St.start.run demo).mem 1).freed = true ∧ ((St.start.run demo).secrets 2).map (·.addr) = some 0 ∧
    ((St.start.run (demo.take 4)).mem 0).bytes = [7, 8, 9] :=
  ⟨run_reachable .start demo, by decide, by decide, by decide, by decide, by decide, by decide⟩

/-! ### Nothing is left behind by a thread that ended -/

/-- pools of threads that ended are empty -/
def NoneLeft (s : St) : Prop := ∀ t, s.gone t = true → s.pool t = []

theorem write_frame (s : St) (b : Box) (v : Bytes) : (s.write b v).gone = s.gone ∧ (s.write b v).pool = s.pool := by
  unfold St.write; dsimp only; split <;> exact ⟨rfl, rfl⟩

theorem free_frame (s : St) (b : Box) : (s.free b).gone = s.gone ∧ (s.free b).pool = s.pool := by
  unfold St.free; dsimp only; split <;> exact ⟨rfl, rfl⟩

theorem dropBox_frame (s : St) (b : Box) : (s.dropBox b).gone = s.gone ∧ (s.dropBox b).pool = s.pool := by
  unfold St.dropBox St.zero
  exact ⟨(free_frame _ b).1.trans (write_frame s b _).1, (free_frame _ b).2.trans (write_frame s b _).2⟩

theorem NoneLeft.of_frame {s s' : St} (h : NoneLeft s) (hg : s'.gone = s.gone) (hp : s'.pool = s.pool) : NoneLeft s' := by
  intro t ht; rw [hg] at ht; rw [hp]; exact h t ht

theorem NoneLeft.write {s : St} (h : NoneLeft s) (b : Box) (v : Bytes) : NoneLeft (s.write b v) := h.of_frame (write_frame s b v).1 (write_frame s b v).2

theorem NoneLeft.alloc {s s' : St} (h : NoneLeft s) {v : Bytes} {b : Box} (ha : s.alloc v = some (b, s')) : NoneLeft s' := by
  unfold St.alloc at ha
  split at ha <;> cases ha
  exact h.of_frame rfl rfl

theorem NoneLeft.newBuf {s s' : St} (h : NoneLeft s) {t n : Nat} {busy : Bool} {b : Box} (ha : s.newBuf t busy n = some (b, s')) : NoneLeft s' := by
  unfold St.newBuf at ha
  split at ha
  · rename_i hv
    unfold St.take at ha
    split at ha
    · exact h.alloc ha
    · split at ha
      · cases ha
        intro t' ht'
        dsimp only [upd] at ht' ⊢
        split
        · subst_vars
          unfold St.avail at hv
          rw [show s.gone _ = true from ht'] at hv
          cases hv
        · exact h t' ht'
      · cases ha
  · exact h.alloc ha

theorem NoneLeft.dropStorage {s : St} (h : NoneLeft s) (t n : Nat) (busy : Bool) (b : Box) : NoneLeft (s.dropStorage t busy n b) := by
  unfold St.dropStorage
  split
  · rename_i hv
    unfold St.release
    intro t' ht'
    have hg : s.gone t' = true := by rw [← (write_frame s b (zeros b.len)).1]; exact ht'
    dsimp only [upd, St.zero]
    split
    · subst_vars
      unfold St.avail at hv
      rw [hg] at hv
      cases hv
    · rw [(write_frame s b (zeros b.len)).2]; exact h t' hg
  · exact h.of_frame (dropBox_frame s b).1 (dropBox_frame s b).2

theorem NoneLeft.fromSlice {s : St} (h : NoneLeft s) (t n : Nat) (busy : Bool) (v : Bytes) : NoneLeft (s.fromSlice t busy n v).2 := by
  unfold St.fromSlice
  split
  · exact h
  · rename_i b s' hb
    split
    · exact ((h.newBuf hb).write b v).of_frame rfl rfl
    · exact (h.newBuf hb).dropStorage t n busy b

theorem NoneLeft.step {s : St} (h : NoneLeft s) (op : Op) : NoneLeft (s.step op).2 := by
  have ch : ∀ k, NoneLeft (s.choose k).2 := by
    intro k; unfold St.choose; split
    · exact h.of_frame rfl rfl
    · split <;> exact h
  cases op with
  | useOnly k => exact ch k
  | tryMemfd p => exact ch _
  | setType k => unfold St.step; dsimp only; split; exact h.of_frame rfl rfl; exact h
  | zero t busy n =>
    unfold St.step; dsimp only; split
    · exact h
    · rename_i b s' hb; exact (h.newBuf hb).of_frame rfl rfl
  | fromSlice t busy n v => exact h.fromSlice t n busy v
  | random t busy n r =>
    unfold St.step; dsimp only; split
    · exact h
    · rename_i b s' hb; exact (((h.newBuf hb).write b _).write b _).of_frame rfl rfl
  | clone t busy i =>
    unfold St.step; dsimp only; split
    · exact h
    · exact h.fromSlice _ _ _ _
  | write i f => unfold St.step; dsimp only; split; exact h; exact h.write _ _
  | randomize i f => unfold St.step; dsimp only; split; exact h; exact (h.write _ _).write _ _
  | zeroize i => unfold St.step; dsimp only; split; exact h; exact h.write _ _
  | drop t busy i =>
    unfold St.step; dsimp only; split
    · exact h
    · exact (h.dropStorage t _ busy _).of_frame rfl rfl
  | threadEnds t =>
    intro t' ht'
    unfold St.step at ht' ⊢
    dsimp only [upd] at ht' ⊢
    split
    · rfl
    · rename_i hn
      rw [if_neg hn] at ht'
      exact h t' ht'

/-- C82: memory that was not given back belongs to a secret that still exists, or lies in the pool of a thread that has not ended: threads leave nothing behind. -/
theorem threads_leave_nothing {s : St} (h : Reachable s) :
    (∀ t, s.gone t = true → s.pool t = []) ∧
    ∀ a, a < s.next → (s.mem a).freed = false → (∃ i b, s.secrets i = some b ∧ b.addr = a) ∨ ∃ t n b, s.gone t = false ∧ (n, b) ∈ s.pool t ∧ b.addr = a := by
  have hl : NoneLeft s := by
    induction h with
    | start => intro t ht; cases ht
    | step op _ ih => exact ih.step op
  refine ⟨hl, fun a ha hf => ?_⟩
  rcases (memory_is_sound h).2.2.2.2 a ha hf with hh | ⟨t, n, b, h1, h2⟩
  · exact .inl hh
  · refine .inr ⟨t, n, b, ?_, h1, h2⟩
    cases hg : s.gone t with
    | false => rfl
    | true => rw [hl t hg] at h1; cases h1

/-- A secret that is dropped after the pool of its thread is gone is given back at once. -/
example : let s := (((St.start.step (.useOnly .malloc)).2.step (.zero 0 false 4)).2.step (.threadEnds 0)).2
    (s.gone 0 = true ∧ s.content 0 = some [0, 0, 0, 0]) ∧ ((s.step (.drop 0 false 0)).2.mem 0).freed = true := by decide +kernel

end Verif.SecretMem
