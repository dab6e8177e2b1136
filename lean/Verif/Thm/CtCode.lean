import Verif.Model.CtCode
/-
C124: what can be seen of the comparisons, `xor` and `increment` depends on the lengths of their arguments only.
-/
namespace Verif.CtCode

/-- code that never branches on data -/
def Stmt.Blind : Stmt → Prop
  | .seq p q => p.Blind ∧ q.Blind
  | .ifLen _ _ p q => p.Blind ∧ q.Blind
  | .ifZero _ _ _ => False
  | .forLen _ _ b => b.Blind
  | _ => True

/-- states that differ in the contents of registers and memory only -/
structure Alike (s t : State) : Prop where
  ctr : s.ctr = t.ctr
  len : ∀ a, (s.mem a).length = (t.mem a).length

/-- outcomes that look the same and leave states that are alike -/
def OutAlike (x y : Out) : Prop :=
  x.2 = y.2 ∧ match x.1, y.1 with
    | none, none => True
    | some s, some t => Alike s t
    | _, _ => False

theorem loop_alike (f g : Nat → State → Out) (h : ∀ k s t, Alike s t → OutAlike (f k s) (g k t)) (n : Nat) :
    ∀ k s t, Alike s t → OutAlike (loop f k n s) (loop g k n t) := by
  induction n with
  | zero => intro k s t hs; exact ⟨rfl, hs⟩
  | succ n ih =>
    intro k s t hs
    have h1 := h k s t hs
    unfold loop
    revert h1
    rcases f k s with ⟨_ | s1, o⟩ <;> rcases g k t with ⟨_ | t1, o'⟩ <;> rintro ⟨h1, h2⟩
    · exact ⟨by dsimp only at h1 ⊢; rw [h1], trivial⟩
    · exact h2.elim
    · exact h2.elim
    · have h3 := ih (k + 1) s1 t1 h2
      exact ⟨by dsimp only at h1 ⊢; rw [h1, h3.1], h3.2⟩

/-- Blind code shows nothing of the data. -/
theorem blind_alike (p : Stmt) : p.Blind → ∀ s t, Alike s t → OutAlike (exec p s) (exec p t) := by
  induction p with
  | skip => intro _ s t h; exact ⟨rfl, h⟩
  | panic => intro _ s t h; exact ⟨rfl, trivial⟩
  | seq p q ihp ihq =>
    intro hb s t h
    have h1 := ihp hb.1 s t h
    unfold exec
    revert h1
    rcases exec p s with ⟨_ | s1, o⟩ <;> rcases exec p t with ⟨_ | t1, o'⟩ <;> rintro ⟨h1, h2⟩
    · exact ⟨h1, trivial⟩
    · exact h2.elim
    · exact h2.elim
    · have h3 := ihq hb.2 s1 t1 h2
      exact ⟨by dsimp only at h1 ⊢; rw [h1, h3.1], h3.2⟩
  | set r e => intro _ s t h; exact ⟨rfl, h.1, h.2⟩
  | load r a c =>
    intro _ s t h
    unfold exec
    have hc := congrFun h.ctr c
    have hl := h.len a
    cases h1 : (s.mem a)[s.ctr c]? with
    | none =>
      have : (t.mem a)[t.ctr c]? = none := by rw [List.getElem?_eq_none_iff] at h1 ⊢; omega
      rw [this]
      exact ⟨by dsimp only; rw [hc], trivial⟩
    | some b =>
      have h1 := (List.getElem?_eq_some_iff.mp h1).1
      rw [hl, hc] at h1
      rw [List.getElem?_eq_getElem h1]
      exact ⟨by dsimp only; rw [hc], h.1, h.2⟩
  | store a c e =>
    intro _ s t h
    unfold exec
    have hc := congrFun h.ctr c
    have hl := h.len a
    by_cases h1 : s.ctr c < (s.mem a).length
    · rw [if_pos h1, if_pos (by omega)]
      refine ⟨by dsimp only; rw [hc], h.1, fun x => ?_⟩
      dsimp only
      split
      · rw [List.length_set, List.length_set, hl]
      · exact h.2 x
    · rw [if_neg h1, if_neg (by omega)]
      exact ⟨by dsimp only; rw [hc], trivial⟩
  | ifLen a b p q ihp ihq =>
    intro hb s t h
    have h1 := ihp hb.1 s t h
    have h2 := ihq hb.2 s t h
    unfold exec
    by_cases hl : (s.mem a).length = (s.mem b).length
    · rw [if_pos hl, if_pos (by rw [← h.2, ← h.2]; exact hl)]
      exact ⟨by dsimp only; rw [h1.1], h1.2⟩
    · rw [if_neg hl, if_neg (by rw [← h.2, ← h.2]; exact hl)]
      exact ⟨by dsimp only; rw [h2.1], h2.2⟩
  | ifZero r p q => intro hb; exact hb.elim
  | forLen c a body ih =>
    intro hb s t h
    unfold exec
    rw [h.2 a]
    exact loop_alike (fun k t => exec body { t with ctr := fun x => if x = c then k else t.ctr x }) (fun k t => exec body { t with ctr := fun x => if x = c then k else t.ctr x })
      (fun k s t h => ih hb { s with ctr := fun x => if x = c then k else s.ctr x } { t with ctr := fun x => if x = c then k else t.ctr x } ⟨by dsimp only; rw [h.ctr], h.2⟩) _ 0 s t h

/-- what is seen of a function of two byte strings depends on their lengths only -/
def ConstantTimeCode (p : Stmt) : Prop := ∀ a b a' b' : Bytes, a.length = a'.length → b.length = b'.length → (exec p (input a b)).2 = (exec p (input a' b')).2

theorem blind_constant_time (p : Stmt) (h : p.Blind) : ConstantTimeCode p := by
  intro a b a' b' ha hb
  refine (blind_alike p h (input a b) (input a' b') ⟨rfl, fun x => ?_⟩).1
  dsimp only [input]
  split
  · exact ha
  · split
    · exact hb
    · rfl

/-- **C124.** -/
theorem compare_constant_time : ConstantTimeCode compareCode := blind_constant_time _ (by simp [compareCode, compareBody, Stmt.all, Stmt.Blind])
theorem memcmp_constant_time : ConstantTimeCode memcmpCode := blind_constant_time _ (by simp [memcmpCode, memcmpBody, Stmt.all, Stmt.Blind])
theorem increment_constant_time : ConstantTimeCode incrementCode := blind_constant_time _ (by simp [incrementCode, incrementBody, Stmt.all, Stmt.Blind])
theorem xor_constant_time : ConstantTimeCode xorCode := blind_constant_time _ (by simp [xorCode, Stmt.all, Stmt.Blind])

/-! ### The code computes the functions of Model/ConstantTime -/

open ConstantTime

theorem loop_done (f : Nat → State → Out) (k : Nat) (s : State) : (loop f k 0 s).1 = some s := rfl

theorem loop_next (f : Nat → State → Out) (k n : Nat) (s s1 : State) (h : (f k s).1 = some s1) : (loop f k (n + 1) s).1 = (loop f (k + 1) n s1).1 := by
  rw [loop]
  rcases hf : f k s with ⟨_ | s2, o⟩
  · rw [hf] at h; cases h
  · rw [hf] at h; cases h; rfl

theorem seq_ok (p q : Stmt) (s s1 : State) (h : (exec p s).1 = some s1) : (exec (.seq p q) s).1 = (exec q s1).1 := by
  rw [exec]
  rcases hf : exec p s with ⟨_ | s2, o⟩
  · rw [hf] at h; cases h
  · rw [hf] at h; cases h; rfl

theorem ifLen_eq (a b : Nat) (p q : Stmt) (s : State) (h : (s.mem a).length = (s.mem b).length) : (exec (.ifLen a b p q) s).1 = (exec p s).1 := by
  rw [exec, if_pos h]

theorem ifLen_ne (a b : Nat) (p q : Stmt) (s : State) (h : (s.mem a).length ≠ (s.mem b).length) : (exec (.ifLen a b p q) s).1 = (exec q s).1 := by
  rw [exec, if_neg h]

theorem load_ok (r a c : Nat) (s : State) (b : UInt8) (h : (s.mem a)[s.ctr c]? = some b) :
    (exec (.load r a c) s).1 = some { s with reg := fun x => if x = r then widen b else s.reg x } := by
  rw [exec, h]

theorem store_ok (a c : Nat) (e : Expr) (s : State) (h : s.ctr c < (s.mem a).length) :
    (exec (.store a c e) s).1 = some { s with mem := fun x => if x = a then (s.mem a).set (s.ctr c) (narrow (e.eval s)) else s.mem x } := by
  rw [exec, if_pos h]

theorem drop_of_get {l : Bytes} {k : Nat} {b : UInt8} (h : l[k]? = some b) : l.drop k = b :: l.drop (k + 1) := by
  obtain ⟨h1, h2⟩ := List.getElem?_eq_some_iff.mp h
  rw [List.drop_eq_getElem_cons h1, h2]

theorem loop_inv (f : Nat → State → Out) (I : Nat → State → Prop) (N : Nat) (h : ∀ k s, k < N → I k s → ∃ s1, (f k s).1 = some s1 ∧ I (k + 1) s1) (n : Nat) :
    ∀ k s, k + n = N → I k s → ∃ s1, (loop f k n s).1 = some s1 ∧ I N s1 := by
  induction n with
  | zero => intro k s hk hi; exact ⟨s, rfl, (show k = N from hk) ▸ hi⟩
  | succ n ih =>
    intro k s hk hi
    obtain ⟨s1, h1, h2⟩ := h k s (by omega) hi
    rw [loop_next f k n s s1 h1]
    exact ih (k + 1) s1 (by omega) h2

theorem for_inv (c a : Nat) (body : Stmt) (I : Nat → State → Prop) (s : State)
    (h : ∀ k s', k < (s.mem a).length → I k s' → ∃ s1, (exec body { s' with ctr := fun x => if x = c then k else s'.ctr x }).1 = some s1 ∧ I (k + 1) s1) (h0 : I 0 s) :
    ∃ s1, (exec (.forLen c a body) s).1 = some s1 ∧ I (s.mem a).length s1 := by
  rw [exec]
  exact loop_inv (fun k t => exec body { t with ctr := fun x => if x = c then k else t.ctr x }) I _ h _ 0 s (Nat.zero_add _) h0

/-- **C124.** The code of `compare` computes `compare`. -/
theorem compare_code (a b : Bytes) : (exec compareCode (input a b)).1.map (·.reg 0) = ConstantTime.compare a b := by
  unfold compareCode ConstantTime.compare
  by_cases hl : a.length = b.length
  · rw [ifLen_eq _ _ _ _ _ hl, if_pos hl]
    dsimp only [Stmt.all, input]
    rw [seq_ok _ _ _ _ rfl]
    obtain ⟨s1, h1, -, -, h2⟩ := for_inv 0 0 compareBody
      (fun k s => s.mem 0 = a ∧ s.mem 1 = b ∧ memcmpLoop (s.reg 1) (a.drop k) (b.drop k) = memcmpLoop 0 a b)
      ⟨fun x => if x = 1 then 0 else 0, fun _ => 0, fun x => if x = 0 then a else if x = 1 then b else []⟩ (by
        rintro k s hk ⟨ha, hb, hr⟩
        have hk : k < a.length := hk
        have g1 : a[k]? = some (a[k]'hk) := List.getElem?_eq_getElem _
        have g2 : b[k]? = some (b[k]'(by omega)) := List.getElem?_eq_getElem _
        generalize a[k]'hk = x at g1
        generalize b[k]'(by omega) = y at g2
        dsimp only [Stmt.all, compareBody]
        rw [seq_ok _ _ _ _ (load_ok 2 0 0 _ x (by simpa [ha] using g1))]
        rw [seq_ok _ _ _ _ (load_ok 3 1 0 _ y (by simpa [hb] using g2))]
        rw [seq_ok _ _ _ _ rfl, seq_ok _ _ _ _ rfl]
        refine ⟨_, rfl, ha, hb, ?_⟩
        rw [drop_of_get g1, drop_of_get g2] at hr
        exact hr) ⟨rfl, rfl, by rw [List.drop_zero, List.drop_zero]; rfl⟩
    refine (congrArg (Option.map (·.reg 0)) ((seq_ok _ (.seq (.set 0 (.add (.add (.shr8 (.sub (.reg 1) (.const 1))) (.shr8 (.reg 1))) (.const 1))) .skip) _ s1 h1).trans (seq_ok _ _ _ _ rfl))).trans ?_
    have h2 : s1.reg 1 = memcmpLoop 0 a b := by
      rw [← h2]
      show _ = memcmpLoop _ (a.drop a.length) _
      rw [List.drop_length]
      rfl
    show some (((s1.reg 1 - 1) >>> 8) + (s1.reg 1 >>> 8) + 1) = some (memcmpFinish (memcmpLoop 0 a b))
    rw [h2]
    rfl
  · rw [ifLen_ne _ _ _ _ _ hl, if_neg hl]
    rfl

theorem widen_toNat (x : UInt8) : (widen x).toBitVec.toNat = x.toNat := by
  have := x.toNat_lt
  unfold widen
  simp

theorem widen_inj {x y : UInt8} (h : widen x = widen y) : x = y := by
  have : (widen x).toBitVec.toNat = (widen y).toBitVec.toNat := by rw [h]
  rw [widen_toNat, widen_toNat] at this
  exact UInt8.toNat_inj.mp this

theorem eq_of_toNat {x y : Int32} (h : x.toBitVec.toNat = y.toBitVec.toNat) : x = y := Int32.toBitVec_inj.mp (BitVec.eq_of_toNat_eq h)

theorem widen_xor (x y : UInt8) : widen x ^^^ widen y = widen (x ^^^ y) := by
  refine eq_of_toNat ?_
  rw [Int32.toBitVec_xor, BitVec.toNat_xor, widen_toNat, widen_toNat, widen_toNat, UInt8.toNat_xor]

theorem widen_or (x y : UInt8) : widen x ||| widen y = widen (x ||| y) := by
  refine eq_of_toNat ?_
  rw [Int32.toBitVec_or, BitVec.toNat_or, widen_toNat, widen_toNat, widen_toNat, UInt8.toNat_or]

theorem narrow_widen (x : UInt8) : narrow (widen x) = x := by
  unfold narrow
  rw [widen_toNat]
  exact UInt8.ofNat_toNat


/-- **C124.** The code of `memcmp` computes `memcmp`. -/
theorem memcmp_code (a b : Bytes) : (exec memcmpCode (input a b)).1.map (fun s => s.reg 0 = 1) = some (ConstantTime.memcmp a b = true) ∧
    (exec memcmpCode (input a b)).1.map (fun s => s.reg 0 = 0) = some (ConstantTime.memcmp a b = false) := by
  unfold memcmpCode ConstantTime.memcmp
  by_cases hl : a.length = b.length
  · rw [ifLen_eq _ _ _ _ _ hl]
    dsimp only [Stmt.all, input]
    rw [seq_ok _ _ _ _ rfl]
    obtain ⟨s1, h1, -, -, acc, h2, h3⟩ := for_inv 0 0 memcmpBody
      (fun k s => s.mem 0 = a ∧ s.mem 1 = b ∧ ∃ acc : UInt8, s.reg 1 = widen acc ∧
        (List.zipWith (fun x y => x ^^^ y) (a.drop k) (b.drop k)).foldl (fun acc x => acc ||| x) acc = (List.zipWith (fun x y => x ^^^ y) a b).foldl (fun acc x => acc ||| x) 0)
      ⟨fun x => if x = 1 then 0 else 0, fun _ => 0, fun x => if x = 0 then a else if x = 1 then b else []⟩ (by
        rintro k s hk ⟨ha, hb, acc, hr, hf⟩
        have hk : k < a.length := hk
        have g1 : a[k]? = some (a[k]'hk) := List.getElem?_eq_getElem _
        have g2 : b[k]? = some (b[k]'(by omega)) := List.getElem?_eq_getElem _
        generalize a[k]'hk = x at g1
        generalize b[k]'(by omega) = y at g2
        dsimp only [Stmt.all, memcmpBody]
        rw [seq_ok _ _ _ _ (load_ok 2 0 0 _ x (by simpa [ha] using g1))]
        rw [seq_ok _ _ _ _ (load_ok 3 1 0 _ y (by simpa [hb] using g2))]
        rw [seq_ok _ _ _ _ rfl]
        refine ⟨_, rfl, ha, hb, acc ||| (x ^^^ y), ?_, ?_⟩
        · show s.reg 1 ||| (widen x ^^^ widen y) = _
          rw [hr, widen_xor, widen_or]
        · rw [drop_of_get g1, drop_of_get g2] at hf
          exact hf) ⟨rfl, rfl, 0, rfl, by rw [List.drop_zero, List.drop_zero]⟩
    have h1 := (seq_ok _ (.seq (.set 0 (.isZero (.reg 1))) .skip) _ s1 h1).trans (seq_ok _ _ _ _ rfl)
    have h3 : acc = (List.zipWith (fun x y => x ^^^ y) a b).foldl (fun acc x => acc ||| x) 0 := by
      rw [← h3]
      show _ = (List.zipWith _ (a.drop a.length) _).foldl _ _
      rw [List.drop_length]
      rfl
    have hr : (if s1.reg 1 = 0 then (1 : Int32) else 0) = if memeq a b then 1 else 0 := by
      unfold memeq
      rw [← h3, h2]
      by_cases h0 : acc = 0
      · rw [h0]; rfl
      · rw [if_neg (fun h : widen acc = 0 => h0 (widen_inj (y := 0) h)), if_neg (by simpa using h0)]
    refine ⟨(congrArg (Option.map _) h1).trans ?_, (congrArg (Option.map _) h1).trans ?_⟩
    · show some ((if s1.reg 1 = 0 then (1 : Int32) else 0) = 1) = _
      rw [hr]
      cases memeq a b <;> simp [hl]
    · show some ((if s1.reg 1 = 0 then (1 : Int32) else 0) = 0) = _
      rw [hr]
      cases memeq a b <;> simp [hl]
  · rw [ifLen_ne _ _ _ _ _ hl]
    have : (a.length == b.length) = false := by simpa using hl
    rw [this]
    refine ⟨?_, ?_⟩
    · show some ((0 : Int32) = 1) = _
      simp
    · show some ((0 : Int32) = 0) = _
      simp

/-- **C124.** The code of `xor` computes `xor`. -/
theorem xor_code (a b : Bytes) : (exec xorCode (input a b)).1.map (·.mem 1) = xorInto a b := by
  unfold xorCode xorInto
  by_cases hl : a.length = b.length
  · rw [ifLen_eq _ _ _ _ _ hl, if_pos hl]
    obtain ⟨s1, h1, -, h2⟩ := for_inv 0 1 (Stmt.all [.load 2 1 0, .load 3 0 0, .store 1 0 (.xor (.reg 2) (.reg 3))])
      (fun k s => s.mem 0 = a ∧ s.mem 1 = (List.zipWith (fun d s => d ^^^ s) b a).take k ++ b.drop k)
      (input a b) (by
        rintro k s hk ⟨ha, hb⟩
        have hk : k < b.length := hk
        have g1 : a[k]? = some (a[k]'(by omega)) := List.getElem?_eq_getElem _
        have g2 : b[k]? = some (b[k]'hk) := List.getElem?_eq_getElem _
        have gz : (List.zipWith (fun d s => d ^^^ s) b a)[k]? = some (b[k]'hk ^^^ a[k]'(by omega)) := by
          rw [List.getElem?_zipWith, g1, g2]
        generalize a[k]'(by omega) = x at g1 gz
        generalize b[k]'hk = y at g2 gz
        have hzl : (List.zipWith (fun d s => d ^^^ s) b a).length = b.length := by rw [List.length_zipWith]; omega
        have htl : ((List.zipWith (fun d s => d ^^^ s) b a).take k).length = k := by rw [List.length_take]; omega
        have hm : (s.mem 1)[k]? = some y := by
          rw [hb, List.getElem?_append_right (by omega), htl, Nat.sub_self, drop_of_get g2]
          rfl
        dsimp only [Stmt.all]
        rw [seq_ok _ _ _ _ (load_ok 2 1 0 _ y (by simpa using hm))]
        rw [seq_ok _ _ _ _ (load_ok 3 0 0 _ x (by simpa [ha] using g1))]
        rw [seq_ok _ _ _ _ (store_ok 1 0 _ _ (by simpa using (List.getElem?_eq_some_iff.mp hm).1))]
        refine ⟨_, rfl, ha, ?_⟩
        show (s.mem 1).set k (narrow (widen y ^^^ widen x)) = _
        rw [widen_xor, narrow_widen, hb, List.set_append_right _ _ (by omega), htl, Nat.sub_self, drop_of_get g2, List.set_cons_zero, List.take_succ, gz, List.append_assoc]
        rfl) ⟨rfl, by rw [List.take_zero, List.drop_zero]; rfl⟩
    rw [h1]
    show some (s1.mem 1) = _
    rw [h2]
    show some (List.take b.length _ ++ b.drop b.length) = _
    rw [List.drop_length, List.append_nil, List.take_of_length_le (by rw [List.length_zipWith]; omega)]
  · rw [ifLen_ne _ _ _ _ _ hl, if_neg hl]
    rfl

theorem add_carry (v c : UInt8) (hc : c.toNat ≤ 1) :
    narrow (widen v + widen c) = v + c ∧ (widen v + widen c) >>> 8 = widen (if v.toNat + c.toNat ≥ 256 then 1 else 0) := by
  have key : ∀ (x : Fin 256) (y : Fin 2), narrow (widen (UInt8.ofNat x.val) + widen (UInt8.ofNat y.val)) = UInt8.ofNat x.val + UInt8.ofNat y.val ∧
      (widen (UInt8.ofNat x.val) + widen (UInt8.ofNat y.val)) >>> 8 = widen (if x.val + y.val ≥ 256 then 1 else 0) := by decide +kernel
  have := key ⟨v.toNat, v.toNat_lt⟩ ⟨c.toNat, by omega⟩
  simpa using this

/-- **C124.** The code of `increment` computes `increment`. -/
theorem increment_code (a b : Bytes) : (exec incrementCode (input a b)).1.map (·.mem 0) = some (increment a) := by
  unfold incrementCode
  dsimp only [Stmt.all]
  rw [seq_ok _ _ _ _ rfl]
  obtain ⟨s1, h1, c, hc1, hc2, done, hd, h2, h3⟩ := for_inv 0 0 incrementBody
    (fun k s => ∃ c : UInt8, s.reg 1 = widen c ∧ c.toNat ≤ 1 ∧ ∃ done : Bytes, done.length = k ∧ s.mem 0 = done ++ a.drop k ∧ done ++ incrementAux c (a.drop k) = increment a)
    { input a b with reg := fun x => if x = 1 then 1 else 0 } (by
      rintro k s hk ⟨c, hc1, hc2, done, hd, h2, h3⟩
      have hk : k < a.length := hk
      have g1 : a[k]? = some (a[k]'hk) := List.getElem?_eq_getElem _
      generalize a[k]'hk = x at g1
      have hm : (s.mem 0)[k]? = some x := by
        rw [h2, List.getElem?_append_right (by omega), hd, Nat.sub_self, drop_of_get g1]
        rfl
      obtain ⟨k1, k2⟩ := add_carry x c hc2
      dsimp only [Stmt.all, incrementBody]
      rw [seq_ok _ _ _ _ (load_ok 2 0 0 _ x (by simpa using hm)), seq_ok _ _ _ _ rfl]
      rw [seq_ok _ _ _ _ (store_ok 0 0 _ _ (by simpa using (List.getElem?_eq_some_iff.mp hm).1)), seq_ok _ _ _ _ rfl]
      refine ⟨_, rfl, if x.toNat + c.toNat ≥ 256 then 1 else 0, ?_, by split <;> decide, done ++ [x + c], by simp [hd], ?_, ?_⟩
      · show (widen x + s.reg 1) >>> 8 = _
        rw [hc1, k2]
      · show (s.mem 0).set k (narrow (widen x + s.reg 1)) = _
        rw [hc1, k1, h2, List.set_append_right _ _ (by omega), hd, Nat.sub_self, drop_of_get g1, List.set_cons_zero, List.append_assoc]
        rfl
      · rw [drop_of_get g1] at h3
        rw [List.append_assoc]
        exact h3) ⟨1, rfl, by decide, [], rfl, rfl, rfl⟩
  refine (congrArg (Option.map (·.mem 0)) (seq_ok _ .skip _ s1 h1)).trans ?_
  show some (s1.mem 0) = _
  rw [h2, ← h3]
  show some (done ++ a.drop a.length) = some (done ++ incrementAux c (a.drop a.length))
  rw [List.drop_length]
  rfl

/-! ### The observations tell constant time from other code -/

/-- a comparison that stops comparing at the first difference -/
def earlyExit : Stmt :=
  .ifLen 0 1
    (Stmt.all [.set 1 (.const 0),
      .forLen 0 0 (.ifZero 1 (Stmt.all [.load 2 0 0, .load 3 1 0, .set 1 (.xor (.reg 2) (.reg 3))]) .skip),
      .set 0 (.isZero (.reg 1))])
    (.set 0 (.const 0))

theorem early_exit_not_constant_time : ¬ ConstantTimeCode earlyExit := by
  intro h
  have := h [1, 2] [1, 2] [1, 2] [3, 2] rfl rfl
  exact absurd this (by decide)

/-- something is seen: two branches per byte (less one) and three accesses -/
example : (exec compareCode (input [1, 2] [1, 3])).2 =
    [.branch true, .branch true, .access 0 0, .access 1 0, .branch true, .access 0 1, .access 1 1, .branch false] := by decide

end Verif.CtCode
