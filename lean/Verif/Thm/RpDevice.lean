import Verif.Model.RpDevice
/-
C85: `rp exchange` touches no device but its own, and removes that.
-/
namespace Verif.RpDevice

/-- the link a request is about -/
def Req.target : Req → Option Nat
  | .add _ => none
  | .del i => some i
  | .up i => some i
  | .setKey i _ _ => some i
  | .rename i _ => some i

/-- no other process makes a request about link `i` -/
def Quiet (i : Nat) (es : List Ev) : Prop := ∀ r, Ev.other r ∈ es → r.target ≠ some i

/-- A link stays as it is under requests about other links. -/
theorem apply_frame {k k' : Kernel} {r : Req} (h : k.apply r = some k') (l : Link) (hl : r.target ≠ some l.index) (hn : l.index ≠ k.next) : l ∈ k'.links ↔ l ∈ k.links := by
  cases r with
  | add n =>
    unfold Kernel.apply at h
    dsimp only at h
    split at h <;> cases h
    simp only [List.mem_append, List.mem_singleton]
    constructor
    · rintro (h | h)
      · exact h
      · rw [h] at hn; exact absurd rfl hn
    · exact .inl
  | del i =>
    have hi : l.index ≠ i := fun he => hl (by rw [he]; rfl)
    unfold Kernel.apply at h
    dsimp only at h
    split at h <;> cases h
    simp [hi]
  | up i =>
    have hi : l.index ≠ i := fun he => hl (by rw [he]; rfl)
    unfold Kernel.apply at h
    dsimp only at h
    split at h <;> cases h
    simp only [List.mem_map]
    constructor
    · rintro ⟨a, ha, he⟩
      split at he
      · subst he; exact absurd ‹_› hi
      · subst he; exact ha
    · intro hm; exact ⟨l, hm, by rw [if_neg hi]⟩
  | setKey i key port =>
    have hi : l.index ≠ i := fun he => hl (by rw [he]; rfl)
    unfold Kernel.apply at h
    dsimp only at h
    split at h <;> cases h
    simp only [List.mem_map]
    constructor
    · rintro ⟨a, ha, he⟩
      split at he
      · subst he; exact absurd ‹_› hi
      · subst he; exact ha
    · intro hm; exact ⟨l, hm, by rw [if_neg hi]⟩
  | rename i n =>
    have hi : l.index ≠ i := fun he => hl (by rw [he]; rfl)
    unfold Kernel.apply at h
    dsimp only at h
    split at h <;> cases h
    simp only [List.mem_map]
    constructor
    · rintro ⟨a, ha, he⟩
      split at he
      · subst he; exact absurd ‹_› hi
      · subst he; exact ha
    · intro hm; exact ⟨l, hm, by rw [if_neg hi]⟩

theorem apply_next {k k' : Kernel} {r : Req} (h : k.apply r = some k') : k.next ≤ k'.next := by
  cases r <;> (unfold Kernel.apply at h; dsimp only at h; split at h <;> cases h) <;> simp

theorem wf_filter {k : Kernel} (w : k.WF) (p : Link → Bool) : Kernel.WF { k with links := k.links.filter p } :=
  ⟨fun l h l' h' => w.names l (List.mem_filter.mp h).1 l' (List.mem_filter.mp h').1, fun l h l' h' => w.index l (List.mem_filter.mp h).1 l' (List.mem_filter.mp h').1, fun l h => w.next l (List.mem_filter.mp h).1, w.nodup.filter _⟩

theorem nodup_map {l : List Link} {f : Link → Link} (hn : l.Nodup) (hf : ∀ a ∈ l, ∀ b ∈ l, f a = f b → a = b) : (l.map f).Nodup := by
  induction l with
  | nil => simp
  | cons a l ih =>
    rw [List.map_cons]
    obtain ⟨h1, h2⟩ := List.nodup_cons.mp hn
    refine List.nodup_cons.mpr ⟨fun hm => ?_, ih h2 fun a ha b hb => hf a (by simp [ha]) b (by simp [hb])⟩
    obtain ⟨b, hb, he⟩ := List.mem_map.mp hm
    have := hf b (by simp [hb]) a (by simp) he
    subst this; exact h1 hb

theorem wf_map {k : Kernel} (w : k.WF) (f : Link → Link) (hi : ∀ l, (f l).index = l.index) (hn : ∀ l ∈ k.links, ∀ l' ∈ k.links, (f l).name = (f l').name → l = l') :
    Kernel.WF { k with links := k.links.map f } := by
  refine ⟨?_, ?_, ?_, ?_⟩
  · intro l h l' h' he
    obtain ⟨a, ha, rfl⟩ := List.mem_map.mp h
    obtain ⟨b, hb, rfl⟩ := List.mem_map.mp h'
    rw [hn a ha b hb he]
  · intro l h l' h' he
    obtain ⟨a, ha, rfl⟩ := List.mem_map.mp h
    obtain ⟨b, hb, rfl⟩ := List.mem_map.mp h'
    rw [hi, hi] at he
    rw [w.index a ha b hb he]
  · intro l h
    obtain ⟨a, ha, rfl⟩ := List.mem_map.mp h
    rw [hi]; exact w.next a ha
  · exact nodup_map w.nodup fun a ha b hb he => w.index a ha b hb (by rw [← hi a, ← hi b, he])

theorem named_empty {k : Kernel} {n : String} (h : (k.named n).isEmpty = true) (l : Link) (hl : l ∈ k.links) : l.name ≠ n := by
  intro he
  have : l ∈ k.named n := List.mem_filter.mpr ⟨hl, by simp [he]⟩
  rw [List.isEmpty_iff.mp h] at this; cases this

theorem apply_wf {k k' : Kernel} {r : Req} (w : k.WF) (h : k.apply r = some k') : k'.WF := by
  cases r with
  | add n =>
    unfold Kernel.apply at h
    dsimp only at h
    split at h <;> cases h
    rename_i he
    have hn := named_empty he
    refine ⟨?_, ?_, ?_, ?_⟩
    · intro l hl l' hl' e
      simp only [List.mem_append, List.mem_singleton] at hl hl'
      rcases hl with hl | rfl <;> rcases hl' with hl' | rfl
      · exact w.names l hl l' hl' e
      · exact absurd e (hn l hl)
      · exact absurd e.symm (hn l' hl')
      · rfl
    · intro l hl l' hl' e
      simp only [List.mem_append, List.mem_singleton] at hl hl'
      rcases hl with hl | rfl <;> rcases hl' with hl' | rfl
      · exact w.index l hl l' hl' e
      · have := w.next l hl; dsimp only at e; omega
      · have := w.next l' hl'; dsimp only at e; omega
      · rfl
    · intro l hl
      simp only [List.mem_append, List.mem_singleton] at hl
      dsimp only
      rcases hl with hl | rfl
      · have := w.next l hl; omega
      · dsimp only; omega
    · dsimp only
      refine List.nodup_append.mpr ⟨w.nodup, by simp, ?_⟩
      intro a ha b hb e
      simp only [List.mem_singleton] at hb
      subst hb; subst e
      have := w.next _ ha; dsimp only at this; omega
  | del i => unfold Kernel.apply at h; dsimp only at h; split at h <;> cases h; exact wf_filter w _
  | up i =>
    unfold Kernel.apply at h; dsimp only at h; split at h <;> cases h
    refine wf_map w _ (fun l => by split <;> rfl) fun l hl l' hl' e => w.names l hl l' hl' ?_
    split at e <;> split at e <;> exact e
  | setKey i key port =>
    unfold Kernel.apply at h; dsimp only at h; split at h <;> cases h
    refine wf_map w _ (fun l => by split <;> rfl) fun l hl l' hl' e => w.names l hl l' hl' ?_
    split at e <;> split at e <;> exact e
  | rename i n =>
    unfold Kernel.apply at h; dsimp only at h; split at h <;> cases h
    rename_i hc
    have hn := named_empty hc.2
    refine wf_map w _ (fun l => by split <;> rfl) fun l hl l' hl' e => ?_
    split at e <;> split at e
    · rename_i h1 h2; exact w.index l hl l' hl' (h1.trans h2.symm)
    · exact absurd e.symm (hn l' hl')
    · exact absurd e (hn l hl)
    · exact w.names l hl l' hl' e

/-- What is known while nobody else touches the device. -/
structure Inv (o : Opt) (s : St) : Prop where
  wf : s.k.WF
  lt : ∀ i, s.mine = some i → i < s.k.next
  phase : match s.pc with
    | .check => s.mine = none ∧ s.reqs = []
    | .add => s.mine = none ∧ s.reqs = []
    | .lookup => ∃ i, s.mine = some i ∧ (⟨i, o.name, false, none⟩ : Link) ∈ s.k.links ∧ s.reqs = [.add o.name]
    | .up i => s.mine = some i ∧ (⟨i, o.name, false, none⟩ : Link) ∈ s.k.links ∧ s.reqs = [.add o.name]
    | .setKey i => s.mine = some i ∧ (⟨i, o.name, true, none⟩ : Link) ∈ s.k.links ∧ s.reqs = [.add o.name, .up i]
    | .running i => s.mine = some i ∧ (⟨i, o.name, true, some (o.key, o.port)⟩ : Link) ∈ s.k.links ∧ s.reqs = [.add o.name, .up i, .setKey i o.key o.port]
    | .cleanup i _ => s.mine = some i ∧ (∃ key, (⟨i, o.name, true, key⟩ : Link) ∈ s.k.links) ∧ (s.reqs = [.add o.name, .up i] ∨ s.reqs = [.add o.name, .up i, .setKey i o.key o.port])
    | .over _ => (s.mine = none ∧ s.reqs = []) ∨ ∃ i, s.mine = some i ∧ (∀ r ∈ s.reqs, r.target = none ∨ r.target = some i) ∧ (∀ n, Req.add n ∈ s.reqs → n = o.name) ∧
        (.del i ∈ s.reqs → ∀ l ∈ s.k.links, l.index ≠ i)

theorem named_one {k : Kernel} (w : k.WF) {l : Link} (h : l ∈ k.links) : k.named l.name = [l] := by
  have hm : l ∈ k.named l.name := List.mem_filter.mpr ⟨h, by simp⟩
  have all : ∀ a ∈ k.named l.name, a = l := by
    intro a ha
    obtain ⟨h1, h2⟩ := List.mem_filter.mp ha
    exact w.names a h1 l h (by simpa using h2)
  have nd : (k.named l.name).Nodup := w.nodup.filter _
  cases hn : k.named l.name with
  | nil => rw [hn] at hm; cases hm
  | cons a t =>
    rw [hn] at all nd
    cases t with
    | nil => rw [all a (by simp)]
    | cons b t =>
      have h1 := all a (by simp)
      have h2 := all b (by simp)
      rw [h1, h2] at nd
      simp at nd

theorem any_of {k : Kernel} {l : Link} (h : l ∈ k.links) : (k.links.any fun x => x.index == l.index) = true := by
  rw [List.any_eq_true]; exact ⟨l, h, by simp⟩

/-- a request of another process -/
theorem inv_other {o : Opt} {s : St} {r : Req} {k : Kernel} (I : Inv o s) (h : s.k.apply r = some k) (hq : ∀ i, s.mine = some i → r.target ≠ some i) : Inv o { s with k := k } := by
  have nx := apply_next h
  have keep : ∀ l : Link, s.mine = some l.index → (l ∈ k.links ↔ l ∈ s.k.links) := by
    intro l hm
    have := I.lt _ hm
    exact apply_frame h l (hq _ hm) (by omega)
  refine ⟨apply_wf I.wf h, fun i hi => Nat.lt_of_lt_of_le (I.lt i hi) nx, ?_⟩
  have ph := I.phase
  dsimp only
  split
  · rename_i hp; rw [hp] at ph; exact ph
  · rename_i hp; rw [hp] at ph; exact ph
  · rename_i hp; rw [hp] at ph; obtain ⟨i, h1, h2, h3⟩ := ph; exact ⟨i, h1, (keep _ h1).2 h2, h3⟩
  · rename_i hp; rw [hp] at ph; obtain ⟨h1, h2, h3⟩ := ph; exact ⟨h1, (keep _ h1).2 h2, h3⟩
  · rename_i hp; rw [hp] at ph; obtain ⟨h1, h2, h3⟩ := ph; exact ⟨h1, (keep _ h1).2 h2, h3⟩
  · rename_i hp; rw [hp] at ph; obtain ⟨h1, h2, h3⟩ := ph; exact ⟨h1, (keep _ h1).2 h2, h3⟩
  · rename_i hp; rw [hp] at ph; obtain ⟨h1, ⟨key, h2⟩, h3⟩ := ph; exact ⟨h1, ⟨key, (keep _ h1).2 h2⟩, h3⟩
  · rename_i hp; rw [hp] at ph
    rcases ph with ph | ⟨i, h1, h2, h3, h4⟩
    · exact .inl ph
    · refine .inr ⟨i, h1, h2, h3, fun hd l hl he => ?_⟩
      subst he
      exact h4 hd l ((keep l h1).1 hl) rfl

theorem inv_step {o : Opt} {s s' : St} {e : Ev} (I : Inv o s) (h : s.step o e = some s') (hq : ∀ r i, e = .other r → s.mine = some i → r.target ≠ some i) : Inv o s' := by
  have ph := I.phase
  cases e with
  | other r =>
    unfold St.step at h
    dsimp only at h
    split at h
    · rename_i k hk; cases h; exact inv_other I hk fun i => hq r i rfl
    · cases h; exact I
  | go ok =>
    unfold St.step at h
    dsimp only at h
    cases hp : s.pc with
    | check =>
      rw [hp] at h ph
      cases h
      refine ⟨I.wf, I.lt, ?_⟩
      dsimp only
      by_cases hc : ok = true ∧ (s.k.named o.name).isEmpty = true
      · rw [if_pos hc]; exact ph
      · rw [if_neg hc]; exact .inl ph
    | add =>
      rw [hp] at h ph
      dsimp only at h
      split at h
      · split at h
        · rename_i k hk
          cases h
          refine ⟨apply_wf I.wf hk, ?_, ?_⟩
          · intro i hi; cases hi
            unfold Kernel.apply at hk; dsimp only at hk; split at hk <;> cases hk; simp
          · refine ⟨s.k.next, rfl, ?_, by dsimp only; rw [ph.2]; rfl⟩
            unfold Kernel.apply at hk; dsimp only at hk; split at hk <;> cases hk; simp
        · cases h; exact ⟨I.wf, I.lt, .inl ph⟩
      · cases h; exact ⟨I.wf, I.lt, .inl ph⟩
    | lookup =>
      rw [hp] at h ph
      dsimp only at h
      obtain ⟨i, h1, h2, h3⟩ := ph
      have hn := named_one I.wf h2
      dsimp only at hn
      rw [hn] at h
      dsimp only at h
      split at h
      · cases h
        exact ⟨I.wf, I.lt, h1, h2, h3⟩
      · cases h
        refine ⟨I.wf, I.lt, .inr ⟨i, h1, ?_, ?_, ?_⟩⟩
        · dsimp only; rw [h3]; intro r hr; simp at hr; subst hr; exact .inl rfl
        · dsimp only; rw [h3]; intro n hn; simp at hn; exact hn
        · dsimp only; rw [h3]; intro hd; simp at hd
    | up i =>
      rw [hp] at h ph
      dsimp only at h
      obtain ⟨h1, h2, h3⟩ := ph
      have hov : Inv o { s with pc := .over false } := by
        refine ⟨I.wf, I.lt, .inr ⟨i, h1, ?_, ?_, ?_⟩⟩
        · dsimp only; rw [h3]; intro r hr; simp at hr; subst hr; exact .inl rfl
        · dsimp only; rw [h3]; intro n hn; simp at hn; exact hn
        · dsimp only; rw [h3]; intro hd; simp at hd
      cases h
      unfold St.request
      split
      · split
        · rename_i k hk
          refine ⟨apply_wf I.wf hk, fun j hj => Nat.lt_of_lt_of_le (I.lt j hj) (apply_next hk), h1, ?_, by dsimp only; rw [h3]; rfl⟩
          unfold Kernel.apply at hk; dsimp only at hk; split at hk <;> cases hk
          exact List.mem_map.mpr ⟨_, h2, by simp⟩
        · exact hov
      · exact hov
    | setKey i =>
      rw [hp] at h ph
      dsimp only at h
      obtain ⟨h1, h2, h3⟩ := ph
      have hcl : Inv o { s with pc := .cleanup i false } := ⟨I.wf, I.lt, h1, ⟨_, h2⟩, .inl h3⟩
      cases h
      unfold St.request
      split
      · split
        · rename_i k hk
          refine ⟨apply_wf I.wf hk, fun j hj => Nat.lt_of_lt_of_le (I.lt j hj) (apply_next hk), h1, ?_, by dsimp only; rw [h3]; rfl⟩
          unfold Kernel.apply at hk; dsimp only at hk; split at hk <;> cases hk
          exact List.mem_map.mpr ⟨_, h2, by simp⟩
        · exact hcl
      · exact hcl
    | running i => rw [hp] at h; cases h
    | cleanup i r => rw [hp] at h; cases h
    | over r => rw [hp] at h; cases h
  | closes ok =>
    unfold St.step at h
    dsimp only at h
    split at h
    rotate_left
    · cases h
    rename_i i r hp
    rw [hp] at ph
    obtain ⟨h1, ⟨key, h2⟩, h3⟩ := ph
    have tg : ∀ q ∈ s.reqs, q.target = none ∨ q.target = some i := by
      intro q hq
      rcases h3 with h3 | h3 <;> (rw [h3] at hq; simp at hq)
      · rcases hq with rfl | rfl <;> simp [Req.target]
      · rcases hq with rfl | rfl | rfl <;> simp [Req.target]
    have ad : ∀ n, Req.add n ∈ s.reqs → n = o.name := by
      intro n hn
      rcases h3 with h3 | h3 <;> (rw [h3] at hn; simpa using hn)
    have nd : Req.del i ∉ s.reqs := by
      rcases h3 with h3 | h3 <;> rw [h3] <;> simp
    have hov : Inv o { s with pc := .over r } := ⟨I.wf, I.lt, .inr ⟨i, h1, tg, ad, fun hd => absurd hd nd⟩⟩
    cases h
    unfold St.request
    split
    · split
      · rename_i k hk
        refine ⟨apply_wf I.wf hk, fun j hj => Nat.lt_of_lt_of_le (I.lt j hj) (apply_next hk), .inr ⟨i, h1, ?_, ?_, fun _ l hl => ?_⟩⟩
        · intro q hq
          rcases List.mem_append.mp hq with hq | hq
          · exact tg q hq
          · simp at hq; subst hq; exact .inr rfl
        · intro n hn
          rcases List.mem_append.mp hn with hn | hn
          · exact ad n hn
          · simp at hn
        · unfold Kernel.apply at hk; dsimp only at hk; split at hk <;> cases hk
          have := (List.mem_filter.mp hl).2
          simpa using this
      · exact hov
    · exact hov
  | ends ok =>
    unfold St.step at h
    dsimp only at h
    split at h
    · rename_i i hp
      rw [hp] at ph
      cases h
      obtain ⟨h1, h2, h3⟩ := ph
      exact ⟨I.wf, I.lt, h1, ⟨_, h2⟩, .inr h3⟩
    · cases h
  | panics c =>
    unfold St.step at h
    dsimp only at h
    split at h
    · rename_i i hp
      rw [hp] at ph
      cases h
      obtain ⟨h1, h2, h3⟩ := ph
      cases c with
      | true => exact ⟨I.wf, I.lt, h1, ⟨_, h2⟩, .inr h3⟩
      | false =>
        refine ⟨I.wf, I.lt, .inr ⟨i, h1, ?_, ?_, ?_⟩⟩
        · intro q hq; dsimp only at hq; rw [h3] at hq; simp at hq
          rcases hq with rfl | rfl | rfl <;> simp [Req.target]
        · intro n hn; dsimp only at hn; rw [h3] at hn; simpa using hn
        · intro hd; dsimp only at hd; rw [h3] at hd; simp at hd
    · cases h

theorem request_mine (s : St) (r : Req) (ok : Bool) (g b : Pc) : (s.request r ok g b).mine = s.mine := by
  unfold St.request; split
  · split <;> rfl
  · rfl

theorem request_pc (s : St) (r : Req) (ok : Bool) (g b : Pc) : (s.request r ok g b).pc = g ∨ (s.request r ok g b).pc = b := by
  unfold St.request; split
  · split
    · exact .inl rfl
    · exact .inr rfl
  · exact .inr rfl

/-- before the device is added it has no index -/
theorem early_none {o : Opt} {k : Kernel} {es : List Ev} {s : St} (h : Run o k es s) (hpc : s.pc = .check ∨ s.pc = .add) : s.mine = none := by
  induction h with
  | start => rfl
  | @step es s s' e h hs ih =>
    cases e with
    | other r =>
      unfold St.step at hs; dsimp only at hs
      split at hs <;> cases hs <;> exact ih hpc
    | go ok =>
      unfold St.step at hs; dsimp only at hs
      cases hp : s.pc with
      | check => rw [hp] at hs; cases hs; exact ih (.inl hp)
      | add =>
        rw [hp] at hs; dsimp only at hs
        split at hs
        · split at hs
          · cases hs; rcases hpc with h | h <;> cases h
          · cases hs; rcases hpc with h | h <;> cases h
        · cases hs; rcases hpc with h | h <;> cases h
      | lookup =>
        rw [hp] at hs; dsimp only at hs
        split at hs
        · split at hs <;> cases hs <;> rcases hpc with h | h <;> cases h
        · cases hs; rcases hpc with h | h <;> cases h
      | up j =>
        rw [hp] at hs; cases hs
        rcases request_pc s (.up j) ok (.setKey j) (.over false) with h1 | h1 <;> rw [h1] at hpc <;> rcases hpc with h | h <;> cases h
      | setKey j =>
        rw [hp] at hs; cases hs
        rcases request_pc s (.setKey j o.key o.port) ok (.running j) (.cleanup j false) with h1 | h1 <;> rw [h1] at hpc <;> rcases hpc with h | h <;> cases h
      | running j => rw [hp] at hs; cases hs
      | cleanup j r => rw [hp] at hs; cases hs
      | over r => rw [hp] at hs; cases hs
    | closes ok =>
      unfold St.step at hs; dsimp only at hs
      split at hs
      · cases hs; rename_i j r hp
        rcases request_pc s (.del j) ok (.over r) (.over r) with h1 | h1 <;> rw [h1] at hpc <;> rcases hpc with h | h <;> cases h
      · cases hs
    | ends ok =>
      unfold St.step at hs; dsimp only at hs
      split at hs <;> cases hs; rcases hpc with h | h <;> cases h
    | panics c =>
      unfold St.step at hs; dsimp only at hs
      split at hs <;> cases hs; cases c <;> rcases hpc with h | h <;> cases h

/-- the index of the own device, once given, stays -/
theorem mine_stays {o : Opt} {k : Kernel} {es : List Ev} {s s' : St} {e : Ev} {i : Nat} (h : Run o k es s) (hs : s.step o e = some s') (hm : s.mine = some i) : s'.mine = some i := by
  cases e with
  | other r => unfold St.step at hs; dsimp only at hs; split at hs <;> cases hs <;> exact hm
  | go ok =>
    unfold St.step at hs
    dsimp only at hs
    cases hp : s.pc with
    | check => rw [early_none h (.inl hp)] at hm; cases hm
    | add => rw [early_none h (.inr hp)] at hm; cases hm
    | lookup =>
      rw [hp] at hs
      dsimp only at hs
      split at hs
      · split at hs <;> cases hs <;> exact hm
      · cases hs; exact hm
    | up j => rw [hp] at hs; cases hs; rw [request_mine]; exact hm
    | setKey j => rw [hp] at hs; cases hs; rw [request_mine]; exact hm
    | running j => rw [hp] at hs; cases hs
    | cleanup j r => rw [hp] at hs; cases hs
    | over r => rw [hp] at hs; cases hs
  | closes ok => unfold St.step at hs; dsimp only at hs; split at hs <;> cases hs; rw [request_mine]; exact hm
  | ends ok => unfold St.step at hs; dsimp only at hs; split at hs <;> cases hs; exact hm
  | panics c => unfold St.step at hs; dsimp only at hs; split at hs <;> cases hs; exact hm

theorem quiet_before {o : Opt} {k : Kernel} {es : List Ev} {s s' : St} {e : Ev} (h : Run o k es s) (hs : s.step o e = some s') (hq : ∀ i, s'.mine = some i → Quiet i (es ++ [e])) :
    ∀ i, s.mine = some i → Quiet i es := fun i hi r hr => hq i (mine_stays h hs hi) r (by simp [hr])

theorem inv_run {o : Opt} {k : Kernel} {es : List Ev} {s : St} (w : k.WF) (h : Run o k es s) (hq : ∀ i, s.mine = some i → Quiet i es) : Inv o s := by
  induction h with
  | start => exact ⟨w, nofun, rfl, rfl⟩
  | @step es s s' e h hs ih =>
    refine inv_step (ih (quiet_before h hs hq)) hs fun r i he hm => ?_
    subst he
    exact hq i (mine_stays h hs hm) r (by simp)

/-! ## Theorems -/

/-- Whatever other processes do to other devices, `rp` makes requests about its own device only: it adds one link, of the given name, and every other request is about that link. -/
theorem only_own_device_touched {o : Opt} {k : Kernel} {es : List Ev} {s : St} (w : k.WF) (h : Run o k es s) (hq : ∀ i, s.mine = some i → Quiet i es) :
    (∀ n, Req.add n ∈ s.reqs → n = o.name) ∧ ∀ r ∈ s.reqs, r.target = none ∨ (r.target = s.mine ∧ s.mine.isSome = true) := by
  have I := inv_run w h hq
  have ph := I.phase
  split at ph
  · rw [ph.2]; exact ⟨nofun, nofun⟩
  · rw [ph.2]; exact ⟨nofun, nofun⟩
  · obtain ⟨i, h1, h2, h3⟩ := ph; rw [h3]; simp [Req.target]
  · obtain ⟨h1, h2, h3⟩ := ph; rw [h3]; simp [Req.target]
  · obtain ⟨h1, h2, h3⟩ := ph; rw [h3, h1]; simp [Req.target]
  · obtain ⟨h1, h2, h3⟩ := ph; rw [h3, h1]; simp [Req.target]
  · obtain ⟨h1, h2, h3 | h3⟩ := ph <;> rw [h3, h1] <;> simp [Req.target]
  · rcases ph with ph | ⟨i, h1, h2, h3, h4⟩
    · rw [ph.2]; exact ⟨nofun, nofun⟩
    · refine ⟨h3, fun r hr => ?_⟩
      rcases h2 r hr with h | h
      · exact .inl h
      · exact .inr ⟨by rw [h, h1], by rw [h1]; rfl⟩

/-- While keys are exchanged the device exists under its name, is up, and has the secret key and port it was given. -/
theorem device_configured {o : Opt} {k : Kernel} {es : List Ev} {s : St} {i : Nat} (w : k.WF) (h : Run o k es s) (hq : ∀ i, s.mine = some i → Quiet i es) (hp : s.pc = .running i) :
    (⟨i, o.name, true, some (o.key, o.port)⟩ : Link) ∈ s.k.links ∧ s.mine = some i := by
  have ph := (inv_run w h hq).phase
  rw [hp] at ph
  exact ⟨ph.2.1, ph.1⟩

/-- if a device of that name exists, nothing is changed -/
theorem existing_device_refused {o : Opt} {k : Kernel} {l : Link} (hl : l ∈ k.links) (hn : l.name = o.name) (ok : Bool) :
    (St.start k).step o (.go ok) = some { St.start k with pc := .over false } := by
  unfold St.step St.start
  dsimp only
  rw [if_neg]
  rintro ⟨_, h⟩
  exact named_empty h l hl hn

/-- Once the device is up, it is gone when `exchange` is over, however that ended: the kernel must not refuse the cleanup job's request, and a panic must not
have kept the job from running. -/
theorem device_removed_partial {o : Opt} {k : Kernel} {es : List Ev} {s : St} {i : Nat} {r : Bool} (w : k.WF) (h : Run o k es s) (hq : ∀ i, s.mine = some i → Quiet i es)
    (hc : Ev.closes false ∉ es) (hpan : Ev.panics false ∉ es) (hm : s.mine = some i) (hu : Req.up i ∈ s.reqs) (hp : s.pc = .over r) : ∀ l ∈ s.k.links, l.index ≠ i := by
  have I := inv_run w h hq
  have key : ∀ r, s.pc = .over r → Req.up i ∈ s.reqs → s.mine = some i → Req.del i ∈ s.reqs := by
    clear hu hp hm I
    induction h with
    | start => intro r hp; cases hp
    | @step es s s' e h hs ih =>
      intro r hp hu hm
      have hq' := quiet_before h hs hq
      have I := inv_run w h hq'
      have ph := I.phase
      have ih := ih hq' (fun hx => hc (by simp [hx])) (fun hx => hpan (by simp [hx]))
      cases e with
      | other q => unfold St.step at hs; dsimp only at hs; split at hs <;> cases hs <;> exact ih r hp hu hm
      | go ok =>
        unfold St.step at hs
        dsimp only at hs
        cases hp' : s.pc with
        | check =>
          rw [hp'] at hs ph; cases hs
          dsimp only at hu; rw [ph.2] at hu; cases hu
        | add =>
          rw [hp'] at hs ph; dsimp only at hs
          split at hs
          · split at hs
            · cases hs; cases hp
            · cases hs; dsimp only at hu; rw [ph.2] at hu; cases hu
          · cases hs; dsimp only at hu; rw [ph.2] at hu; cases hu
        | lookup =>
          rw [hp'] at hs ph; dsimp only at hs
          obtain ⟨j, h1, h2, h3⟩ := ph
          split at hs
          · split at hs
            · cases hs; cases hp
            · cases hs; dsimp only at hu; rw [h3] at hu; simp at hu
          · cases hs; dsimp only at hu; rw [h3] at hu; simp at hu
        | up j =>
          rw [hp'] at hs ph; cases hs
          obtain ⟨h1, h2, h3⟩ := ph
          unfold St.request at hp hu
          split at hp
          · split at hp
            · cases hp
            · rename_i hok _ hk
              rw [if_pos hok, hk] at hu; dsimp only at hu; rw [h3] at hu; simp at hu
          · rename_i hok
            rw [if_neg hok] at hu; dsimp only at hu; rw [h3] at hu; simp at hu
        | setKey j =>
          rw [hp'] at hs; cases hs
          rcases request_pc s (.setKey j o.key o.port) ok (.running j) (.cleanup j false) with h1 | h1 <;> rw [h1] at hp <;> cases hp
        | running j => rw [hp'] at hs; cases hs
        | cleanup j r => rw [hp'] at hs; cases hs
        | over r => rw [hp'] at hs; cases hs
      | closes ok =>
        cases ok with
        | false => exact absurd (by simp) hc
        | true =>
          unfold St.step at hs
          dsimp only at hs
          split at hs
          rotate_left
          · cases hs
          rename_i j r' hp'
          rw [hp'] at ph
          obtain ⟨h1, ⟨key, h2⟩, h3⟩ := ph
          cases hs
          rw [request_mine, h1] at hm
          cases hm
          unfold St.request
          rw [if_pos rfl]
          have : s.k.apply (.del i) = some { s.k with links := s.k.links.filter fun l => !(l.index == i) } := if_pos (any_of h2)
          rw [this]
          simp
      | ends ok => unfold St.step at hs; dsimp only at hs; split at hs <;> cases hs; cases hp
      | panics c =>
        cases c with
        | false => exact absurd (by simp) hpan
        | true => unfold St.step at hs; dsimp only at hs; split at hs <;> cases hs; cases hp
  have ph := I.phase
  rw [hp] at ph
  rcases ph with ph | ⟨j, h1, h2, h3, h4⟩
  · rw [ph.1] at hm; cases hm
  · rw [h1] at hm; cases hm; exact h4 (key r hp hu h1)

/-- run `rp`'s and others' steps -/
def St.exec (o : Opt) (s : St) : List Ev → Option St
  | [] => some s
  | e :: es => (s.step o e).bind fun s => s.exec o es

theorem exec_run {o : Opt} {k : Kernel} {es fs : List Ev} {s s' : St} (h : Run o k es s) (he : s.exec o fs = some s') : Run o k (es ++ fs) s' := by
  induction fs generalizing es s with
  | nil => cases he; rw [List.append_nil]; exact h
  | cons e fs ih =>
    unfold St.exec at he
    cases hs : s.step o e with
    | none => rw [hs] at he; cases he
    | some t =>
      rw [hs] at he
      have := ih (.step e h hs) he
      simpa using this

/-- The finding: if the kernel refuses to bring the new device up, it stays behind, and every later start under this name is refused. -/
theorem failed_up_leaves_device (o : Opt) (k : Kernel) (w : k.WF) (hn : ∀ l ∈ k.links, l.name ≠ o.name) :
    ∃ s, Run o k [.go true, .go true, .go true, .go false] s ∧ s.pc = .over false ∧ s.mine = some k.next ∧ (⟨k.next, o.name, false, none⟩ : Link) ∈ s.k.links ∧
      ∀ ok, (St.start s.k).step o (.go ok) = some { St.start s.k with pc := .over false } := by
  have he : (k.named o.name).isEmpty = true := by
    rw [List.isEmpty_iff]
    unfold Kernel.named
    rw [List.filter_eq_nil_iff]
    intro l hl
    simpa using hn l hl
  have ha : k.apply (.add o.name) = some ⟨k.links ++ [⟨k.next, o.name, false, none⟩], k.next + 1⟩ := if_pos he
  have w2 := apply_wf w ha
  have hm : (⟨k.next, o.name, false, none⟩ : Link) ∈ (⟨k.links ++ [⟨k.next, o.name, false, none⟩], k.next + 1⟩ : Kernel).links := by simp
  have hone := named_one w2 hm
  dsimp only at hone
  let k2 : Kernel := ⟨k.links ++ [⟨k.next, o.name, false, none⟩], k.next + 1⟩
  let s1 : St := ⟨k, .add, none, []⟩
  let s2 : St := ⟨k2, .lookup, some k.next, [.add o.name]⟩
  let s3 : St := ⟨k2, .up k.next, some k.next, [.add o.name]⟩
  let s4 : St := ⟨k2, .over false, some k.next, [.add o.name]⟩
  have e1 : (St.start k).step o (.go true) = some s1 := by
    unfold St.step St.start; dsimp only; rw [if_pos ⟨rfl, he⟩]
  have e2 : s1.step o (.go true) = some s2 := by
    unfold St.step; dsimp only [s1]; rw [if_pos rfl, ha]; rfl
  have e3 : s2.step o (.go true) = some s3 := by
    unfold St.step; dsimp only [s2, k2]; rw [if_pos rfl, hone]
  have e4 : s3.step o (.go false) = some s4 := rfl
  refine ⟨s4, .step _ (.step _ (.step _ (.step _ .start e1) e2) e3) e4, rfl, rfl, hm, fun ok => existing_device_refused hm rfl ok⟩

/-! ## Cases -/

def demoOpt : Opt := ⟨"rosenpass0", [1, 2, 3], some 10000⟩
def demoKernel : Kernel := ⟨[⟨1, "lo", true, none⟩], 2⟩

/-- A whole run, while another process adds and removes a link. -/
example : (St.start demoKernel).exec demoOpt [.go true, .other (.add "eth0"), .go true, .go true, .go true, .go true, .other (.del 2), .ends true, .closes true] =
    some ⟨⟨[⟨1, "lo", true, none⟩], 4⟩, .over true, some 3, [.add "rosenpass0", .up 3, .setKey 3 [1, 2, 3] (some 10000), .del 3]⟩ := by decide +kernel

/-- it is a run that meets the hypotheses of `device_removed_partial` -/
example : ∃ es s, Run demoOpt demoKernel es s ∧ demoKernel.WF ∧ (∀ i, s.mine = some i → Quiet i es) ∧ Ev.closes false ∉ es ∧ Ev.panics false ∉ es ∧ s.mine = some 3 ∧ Req.up 3 ∈ s.reqs ∧ s.pc = .over true := by
  refine ⟨_, _, exec_run (fs := [.go true, .other (.add "eth0"), .go true, .go true, .go true, .go true, .other (.del 2), .ends true, .closes true]) .start (s' := ⟨⟨[⟨1, "lo", true, none⟩], 4⟩, .over true, some 3, [.add "rosenpass0", .up 3, .setKey 3 [1, 2, 3] (some 10000), .del 3]⟩) (by decide +kernel), ?_, ?_, by decide, by decide, rfl, by decide, rfl⟩
  · constructor <;> simp [demoKernel]
  · intro i hi r hr
    cases hi
    simp at hr
    rcases hr with rfl | rfl <;> simp [Req.target]

end Verif.RpDevice
