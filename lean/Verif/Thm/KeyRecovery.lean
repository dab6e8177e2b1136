import Verif.Thm.Published
import Verif.Thm.Daemons
/-
C70: after I/O errors, the next key event of a peer mends what is put out for it. Per-peer form of the invariant of C134. No new model.
-/
namespace Verif
open HashDomain Server FileIO
namespace App
variable {C : Crypto}

/-- **Specification.** What the daemon has put out for peer `p` is what its protocol server holds: its key, or, if it has none, the random key of one of the rounds `all`. -/
def UpToDate (C : Crypto) (all : List World) (p : Nat) (x : App × List Output) : Prop :=
  ∀ (s : Server) (ap : AppPeer), x.1.site = .product s → x.1.peers[p]? = some ap →
    (∀ k, s.osk C p = .ok k → Shows x.1 x.2 ap k) ∧ ((∀ k, s.osk C p ≠ .ok k) → ∃ e ∈ all, Shows x.1 x.2 ap e.stale)

/-- A round in which there is a key event of the peer brings it up to date, whatever was the case before, … -/
theorem upToDate_event (L : C.Lawful) {all : List World} {a : App} (R : Ready C a) (S : Separate a) {e : World} (hmem : e ∈ all) (he : e.WF C) (W : Works e) (U : Untampered C a e)
    {p : Nat} {w : Reason} {k : Bytes} (hev : KeyEvent C a e p w k) (out : List Output) : UpToDate C all p ((a.step C e).app, out ++ (a.step C e).out) := by
  intro s' ap' hs' hap'
  obtain ⟨F, -, -, -⟩ := step_frame (C := C) a e he
  have hlt : p < a.peers.length := by rw [← F.len]; exact (List.getElem?_eq_some_iff.mp hap').1
  obtain ⟨ap, hap⟩ : ∃ ap, a.peers[p]? = some ap := ⟨_, List.getElem?_eq_getElem hlt⟩
  obtain ⟨ap'', g1, g2, g3⟩ := F.peers p ap hap
  have g1 : ap' = ap'' := by have h := hap'.symm.trans g1; cases h; rfl
  subst g1
  obtain ⟨s, hs⟩ : ∃ s, a.site = .product s := by cases hev with
    | stale s s1 p h _ => exact ⟨s, h⟩
    | exchanged s s1 t rx sock addr p m k h => exact ⟨s, h⟩
  have hal := R.aligned
  unfold Aligned at hal
  rw [hs] at hal
  have hal' : s.peers.length = a.peers.length := hal
  obtain ⟨s2, h2, -, hk⟩ := round_key L hs (R.reach s hs) he U (i := p) (by omega)
  have hs' : (a.step C e).app.site = .product s' := hs'
  rw [hs'] at h2; cases h2
  obtain ⟨out1, -⟩ := round_shows L R S he W hap out
  rcases hk with ⟨k', hev', hk⟩ | ⟨hev', hk⟩ | ⟨hno, -⟩
  · refine ⟨fun k2 hk2 => ?_, fun h => absurd hk (h k')⟩
    rw [hk] at hk2; cases hk2
    exact (out1 _ _ hev').dest g2 g3
  · exact ⟨fun k h => absurd h (hk k), fun _ => ⟨e, hmem, (out1 _ _ hev').dest g2 g3⟩⟩
  · exact absurd hev (hno w k)

/-- … and every other round keeps it up to date. -/
theorem upToDate_step (L : C.Lawful) {all : List World} {a : App} {out : List Output} {p : Nat} (I : UpToDate C all p (a, out)) (R : Ready C a) (S : Separate a) {e : World}
    (hmem : e ∈ all) (he : e.WF C) (W : Works e) (U : Untampered C a e) : UpToDate C all p ((a.step C e).app, out ++ (a.step C e).out) := by
  by_cases hev : ∃ w k, KeyEvent C a e p w k
  · obtain ⟨w, k, hev⟩ := hev
    exact upToDate_event L R S hmem he W U hev out
  intro s' ap' hs' hap'
  have hs' : (a.step C e).app.site = .product s' := hs'
  obtain ⟨F, -, hb, hv⟩ := step_frame (C := C) a e he
  have hlt : p < a.peers.length := by rw [← F.len]; exact (List.getElem?_eq_some_iff.mp hap').1
  obtain ⟨ap, hap⟩ : ∃ ap, a.peers[p]? = some ap := ⟨_, List.getElem?_eq_getElem hlt⟩
  obtain ⟨ap'', g1, g2, g3⟩ := F.peers p ap hap
  have g1 : ap' = ap'' := by have h := hap'.symm.trans g1; cases h; rfl
  subst g1
  cases hsite : a.site with
  | builder b => rw [hb b hsite] at hs'; cases hs'
  | void => rw [hv hsite] at hs'; cases hs'
  | product s =>
    have hal := R.aligned
    unfold Aligned at hal
    rw [hsite] at hal
    have hal' : s.peers.length = a.peers.length := hal
    obtain ⟨s2, h2, -, hk⟩ := round_key L hsite (R.reach s hsite) he U (i := p) (by omega)
    rw [hs'] at h2; cases h2
    obtain ⟨-, out2⟩ := round_shows L R S he W hap out
    obtain ⟨I1, I2⟩ := I s ap hsite hap
    rcases hk with ⟨k, h, -⟩ | ⟨h, -⟩ | ⟨hno, hk⟩
    · exact absurd ⟨_, _, h⟩ hev
    · exact absurd ⟨_, _, h⟩ hev
    · obtain ⟨o1, o2⟩ := out2 hno
      have keep : ∀ k, Shows a out ap k → Shows (a.step C e).app (out ++ (a.step C e).out) ap' k := by
        intro k h
        refine Shows.dest (ap := ap) ⟨fun f hf => ?_, fun ptr cfg br hb hl => ?_⟩ g2 g3
        · rw [o1 f hf]; exact h.file f hf
        · rw [F.brokers] at hl
          rw [o2 ptr cfg br hb hl]; exact h.psk ptr cfg br hb hl
      rw [hk]
      refine ⟨fun k h => keep k (I1 k h), fun h => ?_⟩
      obtain ⟨e', he', h⟩ := I2 h
      exact ⟨e', he', keep _ h⟩

theorem upToDate_run (L : C.Lawful) {all : List World} {p : Nat} : ∀ (es : List World) {a : App} {out : List Output}, UpToDate C all p (a, out) → Ready C a → Separate a →
    (∀ e ∈ es, e ∈ all ∧ e.WF C ∧ Works e) → AllUntampered C a es →
    UpToDate C all p (es.foldl (fun x e => ((x.1.step C e).app, x.2 ++ (x.1.step C e).out)) (a, out))
  | [], _, _, I, _, _, _, _ => I
  | e :: es, a, out, I, R, S, h, U => by
    obtain ⟨h1, h2, h3⟩ := h e (List.mem_cons_self ..)
    exact upToDate_run L es (upToDate_step L I R S h1 h2 h3 U.1) (R.step e h2) (S.step e h2) (fun e' he' => h e' (List.mem_cons_of_mem _ he')) U.2

/-- **C70**, the part that holds. Whatever went wrong before (`a` is any daemon in order), once there is a key event of peer `p` (an exchange, or the expiry of the key) in a round in which I/O works,
and as long as it works afterwards, what the daemon has put out for the peer is what its protocol server holds. A key that was lost is thus replaced by the next one, and a key that was not erased is
replaced or erased with the next event; that the lost key itself is put out later is false (`undelivered_answer_loses_key`, `failed_erase_not_repeated`). -/
theorem lost_key_superseded_partial (L : C.Lawful) {a : App} (R : Ready C a) (S : Separate a) {e : World} {es : List World} {p : Nat} {w : Reason} {k : Bytes} (hev : KeyEvent C a e p w k)
    (hw : ∀ e' ∈ e :: es, e'.WF C ∧ Works e') (hu : AllUntampered C a (e :: es)) : UpToDate C (e :: es) p (played C a (e :: es)) := by
  obtain ⟨h2, h3⟩ := hw e (List.mem_cons_self ..)
  exact upToDate_run L es (upToDate_event L R S (List.mem_cons_self ..) h2 h3 hu.1 hev []) (R.step e h2) (S.step e h2)
    (fun e' he' => ⟨List.mem_cons_of_mem _ he', hw e' (List.mem_cons_of_mem _ he')⟩) hu.2

/-! ### A concrete case -/
namespace Ex
open Verif.Ex

/-- the initiator's key exchange, in a round in which the key file cannot be opened, and the expiry of the key later -/
def e3bad : World := { e3 with openOk := false }
def lost : Res := r1.app.step Toy.crypto e3bad
def expires (a : App) (t : Time) : Bool := match (srv a).poll t Verif.Ex.prnd with | some (.deleteKey p, _) => p == 0 | _ => false

theorem stale_of {a : App} {t : Time} (hp : isProduct a = true) (h : expires a t = true) : KeyEvent Toy.crypto a (tick t) 0 .stale (tick t).stale := by
  unfold expires at h
  cases hpo : (srv a).poll t Verif.Ex.prnd with
  | none => rw [hpo] at h; cases h
  | some x =>
    obtain ⟨c, s1⟩ := x
    rw [hpo] at h
    cases c with
    | deleteKey p =>
      have hp0 : p = 0 := by simpa using h
      subst hp0
      exact .stale (srv a) s1 0 (site_of hp) hpo
    | sendInitiation p => cases h
    | sendRetransmission p => cases h
    | sleep t => cases h

theorem e3bad_WF : e3bad.WF Toy.crypto := ⟨(w_WF 3 30 .none).prnd, (w_WF 3 30 .none).rnd, (w_WF 3 30 .none).rnd0, (w_WF 3 30 .none).stale⟩

end Ex

open Ex Verif.Ex in
/-- C70: the hypotheses of `lost_key_superseded_partial` are met after a round in which a key was lost: the protocol server has a key, but there is no key file; when the key has
expired, the file is written. -/
example : Ready Toy.crypto lost.app ∧ Separate lost.app ∧ (lost.app.fs "key").isNone = true ∧ ((srv lost.app).osk Toy.crypto 0).toOption.isSome = true ∧
    KeyEvent Toy.crypto lost.app (tick 1800100) 0 .stale (tick 1800100).stale ∧ (∀ e ∈ [tick 1800100, tick 1800200], e.WF Toy.crypto ∧ Works e) ∧
    AllUntampered Toy.crypto lost.app [tick 1800100, tick 1800200] ∧
    ((played Toy.crypto lost.app [tick 1800100, tick 1800200]).1.fs "key").map (·.content) = some (b64Enc (tick 1800100).stale) := by
  refine ⟨(dA_ready.step e1 (w_WF _ _ _)).step e3bad e3bad_WF, ?_, by decide +kernel, by decide +kernel, stale_of (by decide +kernel) (by decide +kernel), ?_,
    ⟨fun t s1 rx sock ad _ hio => (by cases hio), fun t s1 rx sock ad _ hio => (by cases hio), trivial⟩, by decide +kernel⟩
  · have hl : lost.app.peers.length = 1 := by decide +kernel
    have one : ∀ (i j : Nat) ap aq, lost.app.peers[i]? = some ap → lost.app.peers[j]? = some aq → i = j := by
      intro i j ap aq hi hj
      have hi := (List.getElem?_eq_some_iff.mp hi).1
      have hj := (List.getElem?_eq_some_iff.mp hj).1
      omega
    exact ⟨fun i j ap aq hi hj hij => absurd (one i j ap aq hi hj) hij, fun i j ap aq hi hj hij => absurd (one i j ap aq hi hj) hij⟩
  · intro e he
    simp only [List.mem_cons, List.not_mem_nil, or_false] at he
    rcases he with rfl | rfl <;> exact ⟨w_WF _ _ _, w_works _ _ _⟩

end App
end Verif
