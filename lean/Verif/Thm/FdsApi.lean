import Verif.Thm.Fds
/-!
C108: the sockets of the API that are given by number.
-/
namespace Verif.Fds

/-- the two lists correspond entry by entry -/
inductive All2 {α β : Type} (R : α → β → Prop) : List α → List β → Prop where
  | nil : All2 R [] []
  | cons {a b as bs} : R a b → All2 R as bs → All2 R (a :: as) (b :: bs)

theorem All2.imp {α β : Type} {R S : α → β → Prop} {as : List α} {bs : List β} (h : All2 R as bs)
    (f : ∀ a ∈ as, ∀ b ∈ bs, R a b → S a b) : All2 S as bs := by
  induction h with
  | nil => exact .nil
  | cons h _ ih => exact .cons (f _ (by simp) _ (by simp) h) (ih fun a ha b hb => f a (by simp [ha]) b (by simp [hb]))

namespace Proc

/-- every descriptor refers to a file that has been opened -/
def WF (p : Proc) : Prop := ∀ k e, p.at? k = some e → e.file < p.next

/-- the descriptor refers to /dev/null -/
def IsNull (p : Proc) (n : Nat) : Prop := ∃ z, p.at? n = some ⟨z, true⟩ ∧ p.kind z = .null

/-- files keep their kind, and stay non-blocking -/
def Grows (p q : Proc) : Prop := (∀ f < p.next, q.kind f = p.kind f ∧ (p.nonblock f = true → q.nonblock f = true)) ∧ p.next ≤ q.next

theorem Grows.refl (p : Proc) : Grows p p := ⟨fun _ _ => ⟨rfl, id⟩, Nat.le_refl _⟩
theorem Grows.trans {p q r : Proc} (h : Grows p q) (g : Grows q r) : Grows p r :=
  ⟨fun f hf => by
    have h1 := h.1 f hf; have g1 := g.1 f (Nat.lt_of_lt_of_le hf h.2)
    exact ⟨g1.1.trans h1.1, fun x => g1.2 (h1.2 x)⟩, Nat.le_trans h.2 g.2⟩

/-- One socket was added: `m` was free and now refers to the file `f`, which is non-blocking; the number it was claimed from (if any)
refers to /dev/null; nothing else changed. -/
structure Added (p q : Proc) (m f : Nat) (from? : Option Nat) : Prop where
  wf : q.WF
  len : q.tab.length = p.tab.length
  grows : Grows p q
  free : p.Free m
  got : q.at? m = some ⟨f, true⟩
  nb : q.nonblock f = true
  masked : ∀ n, from? = some n → q.IsNull n
  others : ∀ k, k ≠ m → from? ≠ some k → q.at? k = p.at? k

theorem claim_ok {p q : Proc} {n m : Nat} {w : World} (hw : p.WF) (h : p.claimFd n w = (.ok m, q)) :
    ∃ e, p.at? n = some e ∧ q.WF ∧ q.tab.length = p.tab.length ∧ SameFiles p q ∧ p.Free m ∧ 3 ≤ m ∧ q.at? m = some ⟨e.file, true⟩ ∧ q.IsNull n ∧
      (∀ k, k ≠ m → k ≠ n → q.at? k = p.at? k) := by
  cases he : p.at? n with
  | none => rw [(claim_fd_exact p n w).1 he] at h; simp at h
  | some e =>
    obtain ⟨r, q', hrq, -, hsame, hcase, -⟩ := (claim_fd_exact p n w).2 e he
    rw [h] at hrq; cases hrq
    rcases hcase with ⟨m', hm', h3, hf, hat, ⟨z, hz1, hz2, hz3, hz4⟩, hoth, hlen⟩ | ⟨hbad, -⟩
    · cases hm'
      refine ⟨e, rfl, ?_, hlen, hsame, hf, h3, hat, ⟨z, hz1, hz3⟩, hoth⟩
      intro k e' hk
      by_cases h1 : k = m
      · subst h1; rw [hat] at hk; cases hk; exact Nat.lt_of_lt_of_le (hw n e he) hsame.2
      · by_cases h2 : k = n
        · subst h2; rw [hz1] at hk; cases hk; exact hz4
        · rw [hoth k h1 h2] at hk; exact Nat.lt_of_lt_of_le (hw k e' hk) hsame.2
    · simp at hbad

theorem register_cases (p : Proc) (n : Nat) (ok : Bool) (e : Entry) (he : p.at? n = some e) :
    (ok = true ∧ (p.kind e.file).pollable = true ∧ p.register n ok = (true, p)) ∨
    (¬ (ok = true ∧ (p.kind e.file).pollable = true) ∧ p.register n ok = (false, p.close n)) := by
  unfold register
  rw [he]
  dsimp only
  by_cases h : (ok && (p.kind e.file).pollable) = true
  · left; rw [if_pos h]; simp at h; exact ⟨h.1, h.2, rfl⟩
  · right; rw [if_neg h]; simp at h; exact ⟨by simpa using h, rfl⟩

theorem setNb_added {p p1 : Proc} {n m f : Nat} {e : Entry} (hw : p.WF) (he : p.at? n = some e) (hf : f = e.file) (wf1 : p1.WF) (hl : p1.tab.length = p.tab.length) (hs : SameFiles p p1) (hfree : p.Free m)
    (hat : p1.at? m = some ⟨e.file, true⟩) (hnull : p1.IsNull n) (hoth : ∀ k, k ≠ m → k ≠ n → p1.at? k = p.at? k) :
    Added p { p1 with nonblock := fun g => if g = e.file then true else p1.nonblock g } m f (some n) := by
  subst hf
  refine ⟨wf1, hl, ⟨fun g hg => ⟨(hs.1 g hg).1, fun h => ?_⟩, hs.2⟩, hfree, hat, by simp, ?_, ?_⟩
  · dsimp only; split
    · rfl
    · rw [(hs.1 g hg).2]; exact h
  · intro k hk; cases hk; exact hnull
  · intro k h1 h2; exact hoth k h1 (by intro h; exact h2 (by rw [h]))

theorem listener_added {p q : Proc} {n m : Nat} {w : World} (hw : p.WF) (h : addSocket (p.listenerClaim n w) w.register = (.ok m, q)) :
    ∃ e, p.at? n = some e ∧ (p.kind e.file).pollable = true ∧ Added p q m e.file (some n) := by
  unfold listenerClaim at h
  cases hc : p.claimFd n w with
  | mk r p1 =>
    rw [hc] at h
    cases r with
    | error f => simp [addSocket] at h
    | ok m1 =>
      obtain ⟨e, he, wf1, hl, hs, hfree, h3, hat, hnull, hoth⟩ := claim_ok hw hc
      rcases setNonblocking_cases p1 m1 w.setNonblock with ⟨e1, he1, -, heq⟩ | ⟨-, heq⟩
      · rw [hat] at he1; cases he1
        simp only [heq, addSocket] at h
        rcases register_cases { p1 with nonblock := fun g => if g = e.file then true else p1.nonblock g } m1 w.register ⟨e.file, true⟩ hat with ⟨-, hpoll, hreg⟩ | ⟨-, hreg⟩
        · rw [hreg] at h; cases h
          refine ⟨e, he, ?_, setNb_added hw he rfl wf1 hl hs hfree hat hnull hoth⟩
          have := (hs.1 e.file (hw n e he)).1
          dsimp only at hpoll; rw [this] at hpoll; exact hpoll
        · rw [hreg] at h; simp at h
      · simp [heq, addSocket] at h

theorem stream_added {p q : Proc} {n m : Nat} {w : World} (hw : p.WF) (h : addSocket (p.streamClaim n w) w.register = (.ok m, q)) :
    ∃ e, p.at? n = some e ∧ p.kind e.file = .unixStream ∧ Added p q m e.file (some n) := by
  unfold streamClaim at h
  cases hc : p.claimFd n w with
  | mk r p1 =>
    rw [hc] at h
    cases r with
    | error f => simp [addSocket] at h
    | ok m1 =>
      obtain ⟨e, he, wf1, hl, hs, hfree, h3, hat, hnull, hoth⟩ := claim_ok hw hc
      dsimp only at h
      split at h
      · simp [addSocket] at h
      · rename_i hst
        have hkind : p1.kind e.file = .unixStream := by
          simp [isUnixStream, hat] at hst; exact hst
        rcases setNonblocking_cases p1 m1 w.setNonblock with ⟨e1, he1, -, heq⟩ | ⟨-, heq⟩
        · rw [hat] at he1; cases he1
          simp only [heq, addSocket] at h
          rcases register_cases { p1 with nonblock := fun g => if g = e.file then true else p1.nonblock g } m1 w.register ⟨e.file, true⟩ hat with ⟨-, hpoll, hreg⟩ | ⟨-, hreg⟩
          · rw [hreg] at h; cases h
            refine ⟨e, he, ?_, setNb_added hw he rfl wf1 hl hs hfree hat hnull hoth⟩
            have := (hs.1 e.file (hw n e he)).1
            rw [this] at hkind; exact hkind
          · rw [hreg] at h; simp at h
        · simp [heq, addSocket] at h

theorem bind_added {p q : Proc} {m : Nat} {b ok : Bool} (hw : p.WF) (h : addSocket (p.bindPath b) ok = (.ok m, q)) :
    q.kind p.next = .unixStream ∧ Added p q m p.next none := by
  unfold bindPath at h
  rcases opens_cases p .unixStream true b with ⟨m', hm', -, heq⟩ | ⟨-, heq⟩
  · rw [heq] at h
    obtain ⟨-, hf, -⟩ := lowest_some hm'
    have hat := at?_withFile p m' .unixStream true m' hf.lt
    rw [if_pos rfl] at hat
    simp only [addSocket] at h
    rcases register_cases _ m' ok _ hat with ⟨-, -, hreg⟩ | ⟨-, hreg⟩
    · rw [hreg] at h; cases h
      refine ⟨by simp [withFile], ?_, by simp [withFile], ⟨?_, ?_⟩, hf, hat, by simp [withFile], fun n h => by simp at h, ?_⟩
      · intro k e hk
        rw [at?_withFile _ _ _ _ _ hf.lt] at hk
        split at hk
        · cases hk; simp [withFile]
        · have := hw k e hk; simp [withFile]; omega
      · intro f hf'; have : f ≠ p.next := by omega
        simp [withFile, this]
      · simp [withFile]
      · intro k hk _; rw [at?_withFile _ _ _ _ _ hf.lt, if_neg hk]
    · rw [hreg] at h; simp at h
  · rw [heq] at h; simp [addSocket] at h

/-- The number was open in `p`; the descriptor made of it refers in `q` to the file, which is non-blocking and of a good kind. -/
def Got (p q : Proc) (good : FKind → Prop) (x : Int × World) (m : Nat) : Prop :=
  ∃ (n : Nat) (e : Entry), x.1 = n ∧ p.at? n = some e ∧ q.at? m = some ⟨e.file, true⟩ ∧ good (p.kind e.file) ∧ q.nonblock e.file = true

/-- what a loop over numbers does -/
structure Claimed (p q : Proc) (good : FKind → Prop) (xs : List (Int × World)) (ms : List Nat) : Prop where
  wf : q.WF
  len : q.tab.length = p.tab.length
  grows : Grows p q
  nodup : ms.Nodup
  free : ∀ m ∈ ms, p.Free m
  got : All2 (Got p q good) xs ms
  masked : ∀ x ∈ xs, ∀ n : Nat, x.1 = n → q.IsNull n
  others : ∀ k : Nat, k ∉ ms → (∀ x ∈ xs, x.1 ≠ k) → q.at? k = p.at? k

theorem claims_all (good : FKind → Prop) (f : Proc → Int × World → Except Fail Nat × Proc)
    (hf : ∀ p q n w m, p.WF → f p ((n : Nat), w) = (.ok m, q) → ∃ e, p.at? n = some e ∧ good (p.kind e.file) ∧ Added p q m e.file (some n))
    (xs : List (Int × World)) : ∀ {p q : Proc} {ms : List Nat}, p.WF → (∀ x ∈ xs, ∃ (n : Nat) (e : Entry), x.1 = n ∧ p.at? n = some e) →
      (xs.map Prod.fst).Nodup → p.each f xs = (.ok ms, q) → Claimed p q good xs ms := by
  induction xs with
  | nil =>
    intro p q ms hw _ _ h
    simp [each] at h; obtain ⟨rfl, rfl⟩ := h
    exact ⟨hw, rfl, Grows.refl p, List.nodup_nil, by simp, .nil, by simp, fun _ _ _ => rfl⟩
  | cons x xs ih =>
    intro p q ms hw hopen hnd h
    simp only [each] at h
    obtain ⟨n, e, hxn, he⟩ := hopen x (by simp)
    obtain ⟨x1, w⟩ := x
    dsimp only at hxn; subst hxn
    cases hfx : f p ((n : Nat), w) with
    | mk r p1 =>
      rw [hfx] at h
      cases r with
      | error f => simp at h
      | ok m =>
        dsimp only at h
        cases hr : p1.each f xs with
        | mk r' q' =>
          rw [hr] at h
          cases r' with
          | error f => simp at h
          | ok ms' =>
            simp at h; obtain ⟨rfl, rfl⟩ := h
            obtain ⟨e', he', hgood, A⟩ := hf p p1 n w m hw hfx
            rw [he] at he'; cases he'
            simp only [List.map_cons, List.nodup_cons] at hnd
            -- the other numbers are as before
            have hrest : ∀ y ∈ xs, ∀ k : Nat, y.1 = k → k ≠ n ∧ k ≠ m ∧ p1.at? k = p.at? k := by
              intro y hy k hk
              have h1 : k ≠ n := by
                intro hh; subst hh
                exact hnd.1 (List.mem_map.mpr ⟨y, hy, hk⟩)
              have h2 : k ≠ m := by
                intro hh; subst hh
                obtain ⟨n', e', hn', he'⟩ := hopen y (by simp [hy])
                rw [hk] at hn'
                have hn'' : k = n' := by omega
                subst hn''; rw [A.free.at?] at he'; simp at he'
              exact ⟨h1, h2, A.others k h2 (by intro hh; exact h1 (by injection hh with hh; exact hh.symm))⟩
            have I := ih A.wf (fun y hy => by
              obtain ⟨k, ek, hk, hek⟩ := hopen y (by simp [hy])
              exact ⟨k, ek, hk, by rw [(hrest y hy k hk).2.2]; exact hek⟩) hnd.2 hr
            have hm' : m ∉ ms' := fun hh => by
              have := (I.free m hh).at?; rw [A.got] at this; simp at this
            have hms : ∀ m' ∈ ms', m' ≠ n ∧ m' ≠ m ∧ p.Free m' := by
              intro m' hm''
              have hfree := I.free m' hm''
              have h2 : m' ≠ m := fun hh => hm' (hh ▸ hm'')
              have h1 : m' ≠ n := by
                intro hh; subst hh
                obtain ⟨z, hz, -⟩ := A.masked m' rfl
                rw [hfree.at?] at hz; simp at hz
              refine ⟨h1, h2, ?_⟩
              have hcl := A.others m' h2 (by intro hh; exact h1 (by injection hh with hh; exact hh.symm))
              rw [hfree.at?] at hcl
              have hl : m' < p.tab.length := by rw [← A.len]; exact hfree.lt
              exact free_of_closed hl hcl.symm
            have hkeep : ∀ k : Nat, k = m ∨ k = n → q'.at? k = p1.at? k := by
              intro k hk
              refine I.others k ?_ ?_
              · intro hh; rcases hk with rfl | rfl
                · exact hm' hh
                · exact (hms _ hh).1 rfl
              · intro y hy hh
                have := hrest y hy k hh
                rcases hk with rfl | rfl
                · exact this.2.1 rfl
                · exact this.1 rfl
            have hfile : e.file < p1.next := A.wf m ⟨e.file, true⟩ A.got
            refine ⟨I.wf, I.len.trans A.len, A.grows.trans I.grows, List.nodup_cons.mpr ⟨hm', I.nodup⟩, ?_, .cons ?_ (I.got.imp ?_), ?_, ?_⟩
            · intro k hk
              rcases List.mem_cons.mp hk with rfl | hk
              · exact A.free
              · exact (hms k hk).2.2
            · exact ⟨n, e, rfl, he, by rw [hkeep m (Or.inl rfl)]; exact A.got, hgood, (I.grows.1 _ hfile).2 A.nb⟩
            · rintro y hy k hk ⟨n', e', hy1, he1, hq, hg, hnb⟩
              have hsame := (hrest y hy n' hy1).2.2
              rw [hsame] at he1
              refine ⟨n', e', hy1, he1, hq, ?_, hnb⟩
              rw [← (A.grows.1 _ (hw n' e' he1)).1]; exact hg
            · intro y hy k hk
              rcases List.mem_cons.mp hy with rfl | hy
              · have : k = n := by dsimp only at hk; omega
                subst this
                obtain ⟨z, hz, hzk⟩ := A.masked k rfl
                refine ⟨z, by rw [hkeep k (Or.inr rfl)]; exact hz, ?_⟩
                rw [(I.grows.1 z (A.wf k _ hz)).1]; exact hzk
              · exact I.masked y hy k hk
            · intro k hk hx
              have h1 : k ≠ m := fun hh => hk (by rw [hh]; simp)
              have h2 : k ≠ n := fun hh => hx ((n : Int), w) (by simp) (by rw [hh])
              rw [I.others k (fun hh => hk (by simp [hh])) (fun y hy => hx y (by simp [hy]))]
              exact A.others k h1 (by intro hh; exact h2 (by injection hh with hh; exact hh.symm))

/-- what the loop over paths does -/
structure Bound (p q : Proc) (ms : List Nat) : Prop where
  wf : q.WF
  grows : Grows p q
  len : q.tab.length = p.tab.length
  nodup : ms.Nodup
  free : ∀ m ∈ ms, p.Free m
  got : ∀ m ∈ ms, ∃ f, q.at? m = some ⟨f, true⟩ ∧ p.next ≤ f ∧ q.kind f = .unixStream ∧ q.nonblock f = true
  others : ∀ k : Nat, k ∉ ms → q.at? k = p.at? k

theorem binds_all (xs : List (Bool × World)) : ∀ {p q : Proc} {ms : List Nat}, p.WF →
      p.each (fun p x => Proc.addSocket (p.bindPath x.1) x.2.register) xs = (.ok ms, q) → Bound p q ms ∧ ms.length = xs.length := by
  induction xs with
  | nil =>
    intro p q ms hw h
    simp [each] at h; obtain ⟨rfl, rfl⟩ := h
    exact ⟨⟨hw, Grows.refl p, rfl, List.nodup_nil, by simp, by simp, fun _ _ => rfl⟩, rfl⟩
  | cons x xs ih =>
    intro p q ms hw h
    simp only [each] at h
    cases hfx : Proc.addSocket (p.bindPath x.1) x.2.register with
    | mk r p1 =>
      rw [hfx] at h
      cases r with
      | error f => simp at h
      | ok m =>
        dsimp only at h
        cases hr : p1.each (fun p x => Proc.addSocket (p.bindPath x.1) x.2.register) xs with
        | mk r' q' =>
          rw [hr] at h
          cases r' with
          | error f => simp at h
          | ok ms' =>
            simp at h; obtain ⟨rfl, rfl⟩ := h
            obtain ⟨hk, A⟩ := bind_added hw hfx
            obtain ⟨I, hlen⟩ := ih A.wf hr
            have hm' : m ∉ ms' := fun hh => by
              have := (I.free m hh).at?; rw [A.got] at this; simp at this
            have hfile : p.next < p1.next := A.wf m _ A.got
            refine ⟨⟨I.wf, A.grows.trans I.grows, I.len.trans A.len, List.nodup_cons.mpr ⟨hm', I.nodup⟩, ?_, ?_, ?_⟩, by simp [hlen]⟩
            · intro k hk'
              rcases List.mem_cons.mp hk' with rfl | hk'
              · exact A.free
              · have hfr := I.free k hk'
                have h2 : k ≠ m := fun hh => hm' (hh ▸ hk')
                have hcl := A.others k h2 (by simp)
                rw [hfr.at?] at hcl
                exact free_of_closed (by rw [← A.len]; exact hfr.lt) hcl.symm
            · intro k hk'
              rcases List.mem_cons.mp hk' with rfl | hk'
              · exact ⟨p.next, by rw [I.others _ hm']; exact A.got, Nat.le_refl _, by rw [(I.grows.1 _ hfile).1]; exact hk, (I.grows.1 _ hfile).2 A.nb⟩
              · obtain ⟨f, h1, h2, h3⟩ := I.got k hk'
                exact ⟨f, h1, by omega, h3⟩
            · intro k hk'
              rw [I.others k (fun hh => hk' (by simp [hh]))]
              exact A.others k (fun hh => hk' (by simp [hh])) (by simp)

end Proc

/-- What can be polled: everything but /dev/null and regular files. -/
theorem pollable_iff (k : FKind) : k.pollable = true ↔ k ≠ .null ∧ k ≠ .regular := by cases k <;> simp [FKind.pollable]

theorem pollable_eq : (fun k : FKind => k.pollable = true) = fun k => k ≠ .null ∧ k ≠ .regular := funext fun k => propext (pollable_iff k)

/-- **C108** (the part that holds) The numbers given for the API are distinct and open when the server starts. If setting up the
sockets succeeds, there is one listener for each path and for each number given for a listener, in this order, and one connection for each
number given for a connection: each refers to the very file the number referred to, is non-blocking and its own descriptor, which was
free; every connection is a unix stream socket, every listener something that can be polled, so neither /dev/null nor a regular file; each given number refers to /dev/null;
every other descriptor is as it was. -/
theorem api_sockets_exact_partial (p q : Proc) (c : ApiConfig) (ls ss : List Nat) (hw : p.WF)
    (hopen : ∀ x ∈ c.listenFd ++ c.streamFd, ∃ (n : Nat) (e : Entry), x.1 = n ∧ p.at? n = some e)
    (hnd : ((c.listenFd ++ c.streamFd).map Prod.fst).Nodup) (h : c.apply p = (.ok (ls, ss), q)) :
    ∃ ps ns, ls = ps ++ ns ∧ ps.length = c.listenPath.length ∧
      (∀ m ∈ ps, ∃ f, q.at? m = some ⟨f, true⟩ ∧ p.next ≤ f ∧ q.kind f = .unixStream ∧ q.nonblock f = true) ∧
      All2 (Proc.Got p q (fun k => k ≠ .null ∧ k ≠ .regular)) c.listenFd ns ∧ All2 (Proc.Got p q (· = .unixStream)) c.streamFd ss ∧
      (ls ++ ss).Nodup ∧ (∀ m ∈ ls ++ ss, p.Free m) ∧
      (∀ x ∈ c.listenFd ++ c.streamFd, ∀ n : Nat, x.1 = n → q.IsNull n) ∧
      (∀ k : Nat, k ∉ ls ++ ss → (∀ x ∈ c.listenFd ++ c.streamFd, x.1 ≠ k) → q.at? k = p.at? k) := by
  rw [← pollable_eq]
  unfold ApiConfig.apply at h
  cases h1 : p.each (fun p x => Proc.addSocket (p.bindPath x.1) x.2.register) c.listenPath with
  | mk r p1 =>
  rw [h1] at h
  cases r with
  | error f => simp at h
  | ok ps =>
  dsimp only at h
  cases h2 : p1.each (fun p x => Proc.addSocket (p.listenerClaim x.1 x.2) x.2.register) c.listenFd with
  | mk r p2 =>
  rw [h2] at h
  cases r with
  | error f => simp at h
  | ok ns =>
  dsimp only at h
  cases h3 : p2.each (fun p x => Proc.addSocket (p.streamClaim x.1 x.2) x.2.register) c.streamFd with
  | mk r p3 =>
  rw [h3] at h
  cases r with
  | error f => simp at h
  | ok ms =>
  simp at h
  obtain ⟨⟨rfl, rfl⟩, rfl⟩ := h
  obtain ⟨B, hlen⟩ := Proc.binds_all _ hw h1
  rw [List.map_append, List.nodup_append] at hnd
  obtain ⟨nd1, nd2, ndx⟩ := hnd
  -- the numbers are still open after the paths were bound
  have hold : ∀ (n : Nat) e, p.at? n = some e → p1.at? n = some e := by
    intro n e he
    rw [B.others n ?_]; exact he
    intro hh; rw [(B.free n hh).at?] at he; simp at he
  have L := Proc.claims_all (fun k => k.pollable = true) _ (fun p q n w m hw h => Proc.listener_added hw h) c.listenFd B.wf
    (fun x hx => by obtain ⟨n, e, hn, he⟩ := hopen x (by simp [hx]); exact ⟨n, e, hn, hold n e he⟩) nd1 h2
  have hold2 : ∀ x ∈ c.streamFd, ∀ (n : Nat) e, x.1 = n → p.at? n = some e → p2.at? n = some e ∧ n ∉ ns ∧ ∀ y ∈ c.listenFd, y.1 ≠ n := by
    intro x hx n e hn he
    have a : n ∉ ns := by
      intro hh; have := (L.free n hh).at?; rw [hold n e he] at this; simp at this
    have b : ∀ y ∈ c.listenFd, y.1 ≠ n := by
      intro y hy hh
      exact ndx y.1 (List.mem_map_of_mem hy) x.1 (List.mem_map_of_mem hx) (by rw [hh, hn])
    exact ⟨by rw [L.others n a b]; exact hold n e he, a, b⟩
  have S := Proc.claims_all (· = .unixStream) _ (fun p q n w m hw h => Proc.stream_added hw h) c.streamFd L.wf
    (fun x hx => by obtain ⟨n, e, hn, he⟩ := hopen x (by simp [hx]); exact ⟨n, e, hn, (hold2 x hx n e hn he).1⟩) nd2 h3
  -- what was free in p2 resp. p1 was free in p
  have free1 : ∀ m ∈ ns, p.Free m ∧ m ∉ ps := by
    intro m hm
    have hf := L.free m hm
    have a : m ∉ ps := by
      intro hh; obtain ⟨f, hf', -⟩ := B.got m hh; rw [hf.at?] at hf'; simp at hf'
    refine ⟨Proc.free_of_closed (by rw [← B.len]; exact hf.lt) ?_, a⟩
    rw [← B.others m a]; exact hf.at?
  have open2 : ∀ m ∈ ps ++ ns, ∃ e, p2.at? m = some e := by
    intro m hm
    rcases List.mem_append.mp hm with hm | hm
    · obtain ⟨f, hf, -⟩ := B.got m hm
      refine ⟨_, (L.others m ?_ ?_).trans hf⟩
      · intro hh; exact (free1 m hh).2 hm
      · intro y hy hh
        obtain ⟨n, e, hn, he⟩ := hopen y (by simp [hy])
        have : m = n := by omega
        subst this; rw [(B.free m hm).at?] at he; simp at he
    · have key : ∀ {xs : List (Int × Proc.World)} {ns : List Nat}, All2 (Proc.Got p1 p2 (fun k => k.pollable = true)) xs ns → ∀ m ∈ ns, ∃ e, p2.at? m = some e := by
        intro xs ns h
        induction h with
        | nil => intro m hm; simp at hm
        | cons hg _ ih =>
          intro m hm
          rcases List.mem_cons.mp hm with rfl | hm
          · obtain ⟨n, e, -, -, he, -⟩ := hg; exact ⟨_, he⟩
          · exact ih m hm
      exact key L.got m hm
  have free2 : ∀ m ∈ ms, p.Free m ∧ m ∉ ps ++ ns := by
    intro m hm
    have hf := S.free m hm
    have a : m ∉ ps ++ ns := by
      intro hh; obtain ⟨e, he⟩ := open2 m hh; rw [hf.at?] at he; simp at he
    have b : ∀ y ∈ c.listenFd, y.1 ≠ m := by
      intro y hy hh
      obtain ⟨z, hz, -⟩ := L.masked y hy m hh
      rw [hf.at?] at hz; simp at hz
    refine ⟨Proc.free_of_closed (by rw [← B.len, ← L.len]; exact hf.lt) ?_, a⟩
    rw [← B.others m (fun hh => a (by simp [hh])), ← L.others m (fun hh => a (by simp [hh])) b]; exact hf.at?
  have freeAll : ∀ m ∈ (ps ++ ns) ++ ms, p.Free m := by
    intro m hm
    rcases List.mem_append.mp hm with hm | hm
    · rcases List.mem_append.mp hm with hm | hm
      · exact B.free m hm
      · exact (free1 m hm).1
    · exact (free2 m hm).1
  have given : ∀ x ∈ c.listenFd ++ c.streamFd, ∀ m ∈ (ps ++ ns) ++ ms, x.1 ≠ m := by
    intro x hx m hm hh
    obtain ⟨n, e, hn, he⟩ := hopen x hx
    have : m = n := by omega
    subst this; rw [(freeAll m hm).at?] at he; simp at he
  have stay : ∀ m ∈ ps ++ ns, p3.at? m = p2.at? m := fun m hm =>
    S.others m (fun hh => (free2 m hh).2 hm) (fun y hy => given y (by simp [hy]) m (by simp only [List.mem_append] at hm ⊢; exact Or.inl hm))
  refine ⟨ps, ns, rfl, hlen, ?_, L.got.imp ?_, S.got.imp ?_, ?_, freeAll, ?_, ?_⟩
  · intro m hm
    obtain ⟨f, h1, h2, h3, h4⟩ := B.got m hm
    have hp2 : p2.at? m = some ⟨f, true⟩ := by
      rw [L.others m (fun hh => (free1 m hh).2 hm) (fun y hy => given y (by simp [hy]) m (by simp [hm]))]; exact h1
    have g := L.grows.trans S.grows
    have hlt := B.wf m _ h1
    exact ⟨f, by rw [stay m (by simp [hm])]; exact hp2, h2, by rw [(g.1 f hlt).1]; exact h3, (g.1 f hlt).2 h4⟩
  · rintro x hx m hm ⟨n, e, hn, he, hq, hg, hnb⟩
    obtain ⟨n', e0, hn', he0⟩ := hopen x (by simp [hx])
    have : n' = n := by omega
    subst this
    have : e0 = e := by have := hold n' e0 he0; rw [he] at this; cases this; rfl
    subst this
    refine ⟨n', e0, hn, he0, by rw [stay m (by simp [hm])]; exact hq, ?_, (S.grows.1 _ (L.wf m _ hq)).2 hnb⟩
    rw [← (B.grows.1 _ (hw n' e0 he0)).1]; exact hg
  · rintro x hx m hm ⟨n, e, hn, he, hq, hg, hnb⟩
    obtain ⟨n', e0, hn', he0⟩ := hopen x (by simp [hx])
    have : n' = n := by omega
    subst this
    have : e0 = e := by have := (hold2 x hx n' e0 hn he0).1; rw [he] at this; cases this; rfl
    subst this
    refine ⟨n', e0, hn, he0, hq, ?_, hnb⟩
    rw [← ((B.grows.trans L.grows).1 _ (hw n' e0 he0)).1]; exact hg
  · rw [List.nodup_append]
    refine ⟨?_, S.nodup, fun a ha b hb hab => (free2 b hb).2 (hab ▸ ha)⟩
    rw [List.nodup_append]
    exact ⟨B.nodup, L.nodup, fun a ha b hb hab => (free1 b hb).2 (hab ▸ ha)⟩
  · intro x hx n hn
    rcases List.mem_append.mp hx with hx' | hx'
    · obtain ⟨z, hz, hk⟩ := L.masked x hx' n hn
      refine ⟨z, ?_, ?_⟩
      · rw [S.others n ?_ ?_]; exact hz
        · intro hh; exact given x hx n (by simp [hh]) hn
        · intro y hy hh
          exact ndx x.1 (List.mem_map_of_mem hx') y.1 (List.mem_map_of_mem hy) (by rw [hh, hn])
      · rw [(S.grows.1 z (L.wf n _ hz)).1]; exact hk
    · exact S.masked x hx' n hn
  · intro k hk hx
    rw [S.others k (fun hh => hk (by simp [hh])) (fun y hy => hx y (by simp [hy])),
      L.others k (fun hh => hk (by simp [hh])) (fun y hy => hx y (by simp [hy])), B.others k (fun hh => hk (by simp [hh]))]

/-! ### When it succeeds -/

namespace Proc

/-- how many descriptors other than the standard streams are free -/
def spare (p : Proc) : Nat := ((List.range' 3 (p.tab.length - 3)).filter p.isFree).length

theorem spare_two {p : Proc} (h : 2 ≤ p.spare) : ∃ m k, m ≠ k ∧ 3 ≤ m ∧ p.Free m ∧ p.Free k := by
  unfold spare at h
  have hnd : ((List.range' 3 (p.tab.length - 3)).filter p.isFree).Nodup := (List.nodup_range').filter _
  have hmem : ∀ x ∈ (List.range' 3 (p.tab.length - 3)).filter p.isFree, 3 ≤ x ∧ p.Free x := by
    intro x hx
    rw [List.mem_filter] at hx
    exact ⟨(List.mem_range'_1.mp hx.1).1, (isFree_iff p x).mp hx.2⟩
  cases hl : (List.range' 3 (p.tab.length - 3)).filter p.isFree with
  | nil => rw [hl] at h; simp at h
  | cons a t =>
    cases t with
    | nil => rw [hl] at h; simp at h
    | cons b t =>
      rw [hl] at hnd hmem
      simp only [List.nodup_cons, List.mem_cons, not_or] at hnd
      exact ⟨a, b, hnd.1.1, (hmem a (by simp)).1, (hmem a (by simp)).2, (hmem b (by simp)).2⟩

theorem filter_less {l : List Nat} (hnd : l.Nodup) (P Q : Nat → Bool) (m : Nat) (h : ∀ x, P x = true → x ≠ m → Q x = true) :
    (l.filter P).length ≤ (l.filter Q).length + 1 := by
  induction l with
  | nil => simp
  | cons a t ih =>
    rw [List.nodup_cons] at hnd
    have := ih hnd.2
    by_cases ha : a = m
    · subst ha
      have hsub : (t.filter P).length ≤ (t.filter Q).length := by
        have hle : ∀ (t : List Nat), a ∉ t → (t.filter P).length ≤ (t.filter Q).length := by
          intro t
          induction t with
          | nil => simp
          | cons b t ih =>
            intro hb
            simp only [List.mem_cons, not_or] at hb
            have i := ih hb.2
            by_cases hp : P b = true
            · have hq := h b hp (Ne.symm hb.1)
              simp [hp, hq]; exact i
            · by_cases hq : Q b = true <;> simp [List.filter_cons, hp, hq] <;> omega
        exact hle t hnd.1
      simp only [List.filter_cons]
      split <;> split <;> simp <;> omega
    · by_cases hp : P a = true
      · have hq := h a hp ha
        simp [hp, hq]; omega
      · by_cases hq : Q a = true <;> simp [List.filter_cons, hp, hq] <;> omega

theorem Added.spare_le {p q : Proc} {m f : Nat} {o : Option Nat} (A : Added p q m f o) (ho : ∀ n, o = some n → ∃ e, p.at? n = some e) :
    p.spare ≤ q.spare + 1 := by
  unfold spare
  rw [A.len]
  refine filter_less List.nodup_range' _ _ m ?_
  intro x hx hxm
  have hx' := (isFree_iff p x).mp hx
  refine (isFree_iff q x).mpr (free_of_closed (by rw [A.len]; exact hx'.lt) ?_)
  rw [A.others x hxm ?_]; exact hx'.at?
  intro hh
  obtain ⟨e, he⟩ := ho x hh
  rw [hx'.at?] at he; simp at he

/-- no system call fails for a reason of its own -/
def World.Fine (w : World) : Prop := w.dup = true ∧ w.openNull = true ∧ w.dup3 = true ∧ w.setNonblock = true ∧ w.register = true

theorem claim_succeeds {p : Proc} {n : Nat} {e : Entry} (he : p.at? n = some e) {w : World} (hw : w.Fine) (hs : 2 ≤ p.spare) :
    ∃ m q, p.claimFd n w = (.ok m, q) := by
  obtain ⟨r, q, hrq, -, -, -, hiff⟩ := (claim_fd_exact p n w).2 e he
  obtain ⟨m, hm⟩ := hiff.mpr ⟨⟨hw.1, hw.2.1, hw.2.2.1⟩, spare_two hs⟩
  subst hm; exact ⟨m, q, hrq⟩

theorem listener_succeeds {p : Proc} (wf : p.WF) {n : Nat} {e : Entry} (he : p.at? n = some e) {w : World} (hw : w.Fine) (hs : 2 ≤ p.spare)
    (hk : (p.kind e.file).pollable = true) : ∃ m q, addSocket (p.listenerClaim n w) w.register = (.ok m, q) := by
  obtain ⟨m, p1, hc⟩ := claim_succeeds he hw hs
  obtain ⟨e', he', wf1, hl, hsame, hfree, h3, hat, -, -⟩ := claim_ok wf hc
  rw [he] at he'; cases he'
  unfold listenerClaim
  rw [hc]
  dsimp only
  rcases setNonblocking_cases p1 m w.setNonblock with ⟨e1, he1, -, heq⟩ | ⟨hno, -⟩
  · rw [hat] at he1; cases he1
    simp only [heq, addSocket]
    rcases register_cases { p1 with nonblock := fun g => if g = e.file then true else p1.nonblock g } m w.register ⟨e.file, true⟩ hat with ⟨-, -, hreg⟩ | ⟨hno, -⟩
    · rw [hreg]; exact ⟨_, _, rfl⟩
    · exact absurd ⟨hw.2.2.2.2, by dsimp only; rw [(hsame.1 _ (wf n e he)).1]; exact hk⟩ hno
  · rw [hat, hw.2.2.2.1] at hno; simp at hno

theorem stream_succeeds {p : Proc} (wf : p.WF) {n : Nat} {e : Entry} (he : p.at? n = some e) {w : World} (hw : w.Fine) (hs : 2 ≤ p.spare)
    (hk : p.kind e.file = .unixStream) : ∃ m q, addSocket (p.streamClaim n w) w.register = (.ok m, q) := by
  obtain ⟨m, p1, hc⟩ := claim_succeeds he hw hs
  obtain ⟨e', he', wf1, hl, hsame, hfree, h3, hat, -, -⟩ := claim_ok wf hc
  rw [he] at he'; cases he'
  unfold streamClaim
  rw [hc]
  dsimp only
  have hkk : p1.kind e.file = .unixStream := by rw [(hsame.1 _ (wf n e he)).1]; exact hk
  have hst : ¬ (p1.isUnixStream m = false) := by simp [isUnixStream, hat, hkk]
  rw [if_neg hst]
  rcases setNonblocking_cases p1 m w.setNonblock with ⟨e1, he1, -, heq⟩ | ⟨hno, -⟩
  · rw [hat] at he1; cases he1
    simp only [heq, addSocket]
    rcases register_cases { p1 with nonblock := fun g => if g = e.file then true else p1.nonblock g } m w.register ⟨e.file, true⟩ hat with ⟨-, -, hreg⟩ | ⟨hno, -⟩
    · rw [hreg]; exact ⟨_, _, rfl⟩
    · exact absurd ⟨hw.2.2.2.2, by dsimp only; rw [hkk]; rfl⟩ hno
  · rw [hat, hw.2.2.2.1] at hno; simp at hno

theorem bind_succeeds {p : Proc} {w : World} (hw : w.Fine) (hs : 1 ≤ p.spare) : ∃ m q, addSocket (p.bindPath true) w.register = (.ok m, q) := by
  unfold bindPath
  rcases opens_cases p .unixStream true true with ⟨m, hm, -, heq⟩ | ⟨hno, -⟩
  · rw [heq]
    obtain ⟨-, hf, -⟩ := lowest_some hm
    have hat := at?_withFile p m .unixStream true m hf.lt
    rw [if_pos rfl] at hat
    simp only [addSocket]
    rcases register_cases _ m w.register _ hat with ⟨-, -, hreg⟩ | ⟨hno, -⟩
    · rw [hreg]; exact ⟨_, _, rfl⟩
    · exact absurd ⟨hw.2.2.2.2, by simp [withFile, FKind.pollable]⟩ hno
  · simp at hno
    exfalso
    unfold spare at hs
    cases hl : (List.range' 3 (p.tab.length - 3)).filter p.isFree with
    | nil => rw [hl] at hs; simp at hs
    | cons a t =>
      have : a ∈ (List.range' 3 (p.tab.length - 3)).filter p.isFree := by rw [hl]; simp
      rw [List.mem_filter] at this
      exact lowest_none hno a (Nat.zero_le _) ((isFree_iff p a).mp this.2)

theorem binds_succeed (xs : List (Bool × World)) : ∀ {p : Proc}, p.WF → (∀ x ∈ xs, x.1 = true ∧ x.2.Fine) → xs.length ≤ p.spare →
    ∃ ms q, p.each (fun p x => Proc.addSocket (p.bindPath x.1) x.2.register) xs = (.ok ms, q) ∧ p.spare ≤ q.spare + xs.length := by
  induction xs with
  | nil => intro p _ _ _; exact ⟨[], p, rfl, by simp⟩
  | cons x xs ih =>
    intro p hw hx hs
    simp only [List.length_cons] at hs
    obtain ⟨hb, hf⟩ := hx x (by simp)
    obtain ⟨m, p1, h1⟩ := bind_succeeds (p := p) hf (by omega)
    rw [← hb] at h1
    obtain ⟨-, A⟩ := bind_added hw h1
    have hsp := A.spare_le (by simp)
    obtain ⟨ms, q, h2, h3⟩ := ih A.wf (fun y hy => hx y (by simp [hy])) (by omega)
    refine ⟨m :: ms, q, ?_, by simp only [List.length_cons]; omega⟩
    simp only [each, h1, h2]

theorem claims_succeed (good : FKind → Prop) (f : Proc → Int × World → Except Fail Nat × Proc)
    (hf : ∀ p q n w m, p.WF → f p ((n : Nat), w) = (.ok m, q) → ∃ e, p.at? n = some e ∧ good (p.kind e.file) ∧ Added p q m e.file (some n))
    (hs : ∀ p n e w, p.WF → p.at? n = some e → w.Fine → 2 ≤ p.spare → good (p.kind e.file) → ∃ m q, f p ((n : Nat), w) = (.ok m, q))
    (xs : List (Int × World)) : ∀ {p : Proc}, p.WF → (∀ x ∈ xs, x.2.Fine ∧ ∃ (n : Nat) (e : Entry), x.1 = n ∧ p.at? n = some e ∧ good (p.kind e.file)) →
      (xs.map Prod.fst).Nodup → xs.length + 1 ≤ p.spare → ∃ ms q, p.each f xs = (.ok ms, q) ∧ p.spare ≤ q.spare + xs.length := by
  induction xs with
  | nil => intro p _ _ _ _; exact ⟨[], p, rfl, by simp⟩
  | cons x xs ih =>
    intro p hw hopen hnd hsp
    simp only [List.length_cons] at hsp
    simp only [List.map_cons, List.nodup_cons] at hnd
    obtain ⟨hfine, n, e, hn, he, hg⟩ := hopen x (by simp)
    obtain ⟨x1, w⟩ := x
    dsimp only at hn hfine; subst hn
    obtain ⟨m, p1, h1⟩ := hs p n e w hw he hfine (by omega) hg
    obtain ⟨e', he', -, A⟩ := hf p p1 n w m hw h1
    have hle := A.spare_le (fun k hk => by cases hk; exact ⟨e, he⟩)
    have hrest : ∀ y ∈ xs, y.2.Fine ∧ ∃ (n : Nat) (e : Entry), y.1 = n ∧ p1.at? n = some e ∧ good (p1.kind e.file) := by
      intro y hy
      obtain ⟨a, k, ek, hk, hek, hgk⟩ := hopen y (by simp [hy])
      refine ⟨a, k, ek, hk, ?_, ?_⟩
      · rw [A.others k ?_ ?_]; exact hek
        · intro hh; subst hh; rw [A.free.at?] at hek; simp at hek
        · intro hh; injection hh with hh; subst hh
          exact hnd.1 (List.mem_map.mpr ⟨y, hy, hk⟩)
      · rw [(A.grows.1 _ (hw k ek hek)).1]; exact hgk
    obtain ⟨ms, q, h2, h3⟩ := ih A.wf hrest hnd.2 (by omega)
    refine ⟨m :: ms, q, ?_, by simp only [List.length_cons]; omega⟩
    simp only [each, h1, h2]

end Proc

/-- **C108** If the numbers are distinct and open, those for listeners can be polled and those for connections are unix stream sockets,
the paths can be bound, no system call fails for a reason of its own and one more descriptor than sockets is free, then all sockets
are set up. -/
theorem api_sockets_set_up (p : Proc) (c : ApiConfig) (hw : p.WF)
    (hp : ∀ x ∈ c.listenPath, x.1 = true ∧ x.2.Fine)
    (hl : ∀ x ∈ c.listenFd, x.2.Fine ∧ ∃ (n : Nat) (e : Entry), x.1 = n ∧ p.at? n = some e ∧ p.kind e.file ≠ .null ∧ p.kind e.file ≠ .regular)
    (hs : ∀ x ∈ c.streamFd, x.2.Fine ∧ ∃ (n : Nat) (e : Entry), x.1 = n ∧ p.at? n = some e ∧ p.kind e.file = .unixStream)
    (hnd : ((c.listenFd ++ c.streamFd).map Prod.fst).Nodup)
    (hsp : c.listenPath.length + c.listenFd.length + c.streamFd.length + 1 ≤ p.spare) :
    ∃ ls ss q, c.apply p = (.ok (ls, ss), q) := by
  simp only [← pollable_iff] at hl
  obtain ⟨ps, p1, h1, s1⟩ := Proc.binds_succeed c.listenPath hw hp (by omega)
  obtain ⟨B, hlen⟩ := Proc.binds_all _ hw h1
  rw [List.map_append, List.nodup_append] at hnd
  obtain ⟨nd1, nd2, ndx⟩ := hnd
  have hold : ∀ (n : Nat) e, p.at? n = some e → p1.at? n = some e ∧ p1.kind e.file = p.kind e.file := by
    intro n e he
    refine ⟨?_, (B.grows.1 _ (hw n e he)).1⟩
    rw [B.others n ?_]; exact he
    intro hh; rw [(B.free n hh).at?] at he; simp at he
  obtain ⟨ns, p2, h2, s2⟩ := Proc.claims_succeed (fun k => k.pollable = true) (fun p x => Proc.addSocket (p.listenerClaim x.1 x.2) x.2.register)
    (fun p q n w m hw h => Proc.listener_added hw h) (fun p n e w hw he hf hs hg => Proc.listener_succeeds hw he hf hs hg) c.listenFd B.wf
    (fun x hx => by
      obtain ⟨a, n, e, hn, he, hg⟩ := hl x hx
      exact ⟨a, n, e, hn, (hold n e he).1, by rw [(hold n e he).2]; exact hg⟩) nd1 (by omega)
  have L := Proc.claims_all (fun k => k.pollable = true) _ (fun p q n w m hw h => Proc.listener_added hw h) c.listenFd B.wf
    (fun x hx => by obtain ⟨-, n, e, hn, he, -⟩ := hl x hx; exact ⟨n, e, hn, (hold n e he).1⟩) nd1 h2
  obtain ⟨ms, p3, h3, -⟩ := Proc.claims_succeed (· = .unixStream) (fun p x => Proc.addSocket (p.streamClaim x.1 x.2) x.2.register)
    (fun p q n w m hw h => Proc.stream_added hw h) (fun p n e w hw he hf hs hg => Proc.stream_succeeds hw he hf hs hg) c.streamFd L.wf
    (fun x hx => by
      obtain ⟨a, n, e, hn, he, hg⟩ := hs x hx
      refine ⟨a, n, e, hn, ?_, ?_⟩
      · rw [L.others n ?_ ?_]; exact (hold n e he).1
        · intro hh; have := (L.free n hh).at?; rw [(hold n e he).1] at this; simp at this
        · intro y hy hh
          exact ndx y.1 (List.mem_map_of_mem hy) x.1 (List.mem_map_of_mem hx) (by rw [hh, hn])
      · rw [(L.grows.1 _ (B.wf n e (hold n e he).1)).1, (hold n e he).2]; exact hg) nd2 (by omega)
  refine ⟨ps ++ ns, ms, p3, ?_⟩
  unfold ApiConfig.apply
  rw [h1]; dsimp only
  rw [h2]; dsimp only
  rw [h3]

/-! ### What is not so -/

/-- all system calls succeed -/
def fine : Proc.World := ⟨true, true, true, true, true⟩

/-- A process with the standard streams, a unix stream socket at 3 and a pipe at 4, and room for ten descriptors. -/
def proc0 : Proc where
  tab := [some ⟨0, false⟩, some ⟨1, false⟩, some ⟨2, false⟩, some ⟨3, false⟩, some ⟨4, false⟩, none, none, none, none, none]
  kind := fun f => if f = 3 then .unixStream else if f = 4 then .pipe else .regular
  nonblock := fun _ => false
  next := 5
  fault := false

/-- What is given for a listener is not checked: a pipe is taken. -/
theorem pipe_accepted_as_listener : ∃ (p : Proc) (e : Entry) (q : Proc) (m : Nat), p.WF ∧ p.at? 4 = some e ∧ p.kind e.file = .pipe ∧
    (ApiConfig.apply ⟨[], [(4, fine)], []⟩ p) = (.ok ([m], []), q) ∧ q.at? m = some ⟨e.file, true⟩ := by
  refine ⟨proc0, ⟨4, false⟩, _, 5, ?_, rfl, rfl, rfl, rfl⟩
  intro k e h
  have hk := Proc.at?_lt h
  have hk' : k < 10 := hk
  have : k = 0 ∨ k = 1 ∨ k = 2 ∨ k = 3 ∨ k = 4 ∨ k = 5 ∨ k = 6 ∨ k = 7 ∨ k = 8 ∨ k = 9 := by omega
  rcases this with rfl | rfl | rfl | rfl | rfl | rfl | rfl | rfl | rfl | rfl <;> simp [Proc.at?, proc0] at h <;> subst h <;> simp [proc0]

/-- A number that was not given to the process is taken if the server itself has opened it meanwhile: here the listener made for
a path is taken for a connection, and /dev/null is left in its place. -/
theorem own_listener_taken_as_connection : ∃ (p q : Proc) (l s : Nat), p.at? l = none ∧
    (ApiConfig.apply ⟨[(true, fine)], [], [((l : Nat), fine)]⟩ p) = (.ok ([l], [s]), q) ∧ q.IsNull l :=
  ⟨proc0, _, 5, 6, rfl, rfl, ⟨5 + 1, rfl, rfl⟩⟩

/-- The number -1 makes the server panic. -/
theorem minus_one_panics (p : Proc) (w : Proc.World) (rest : List (Int × Proc.World)) :
    (ApiConfig.apply ⟨[], [], (-1, w) :: rest⟩ p).1 = .error .panic := by
  simp [ApiConfig.apply, Proc.each, Proc.streamClaim, Proc.claimFd, Proc.addSocket]

/-- One path, a listener and a connection: the hypotheses of `api_sockets_exact_partial` and `api_sockets_set_up` are met. -/
example : ∃ q, ApiConfig.apply ⟨[(true, fine)], [(4, fine)], [(3, fine)]⟩ proc0 = (.ok ([5, 6], [7]), q) ∧
    q.at? 6 = some ⟨4, true⟩ ∧ q.at? 7 = some ⟨3, true⟩ ∧ q.IsNull 3 ∧ q.IsNull 4 ∧ proc0.spare = 5 :=
  ⟨_, rfl, rfl, rfl, ⟨_, rfl, rfl⟩, ⟨_, rfl, rfl⟩, by decide⟩

/-- a connection that is no unix stream socket is refused; the descriptor given is gone -/
example : ∃ q, ApiConfig.apply ⟨[], [], [(4, fine)]⟩ proc0 = (.error .error, q) ∧ q.IsNull 4 ∧ q.at? 5 = none := ⟨_, rfl, ⟨_, rfl, rfl⟩, rfl⟩

/-- a failing dup3 leaves all descriptors as they were -/
example : (proc0.claimFd 3 { fine with dup3 := false }).1 = .error .error ∧ (proc0.claimFd 3 { fine with dup3 := false }).2.tab = proc0.tab := ⟨rfl, rfl⟩

end Verif.Fds
