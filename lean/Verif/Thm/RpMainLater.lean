import Verif.Thm.RpMainEx
import Verif.Thm.AppHist
/-
The link between two hosts (C120) lasts: whatever the daemons receive, send and do later.
-/
namespace Verif.RpMain
open _root_.Verif.Server

variable {C : Crypto}

/-- the daemon after any number of rounds of its event loop -/
def rounds (C : Crypto) (a : App) (es : List _root_.Verif.World) : App := es.foldl (fun a e => (a.step C e).app) a

theorem rounds_frame (L : C.Lawful) (es : List _root_.Verif.World) (hes : ∀ e ∈ es, e.WF C) (a : App) :
    App.Frame a (rounds C a es) ∧ ∀ s, a.site = .product s → Reachable C s → ∃ s', (rounds C a es).site = .product s' ∧ Reachable C s' ∧ Later s s' := by
  induction es generalizing a with
  | nil => exact ⟨.refl _, fun s h hr => ⟨s, h, hr, .refl _⟩⟩
  | cons e es ih =>
    obtain ⟨F, f1, -, -⟩ := App.step_frame (C := C) a e (hes e (List.mem_cons_self ..))
    obtain ⟨G, g⟩ := ih (fun x hx => hes x (List.mem_cons_of_mem _ hx)) (a.step C e).app
    refine ⟨F.trans G, fun s hs hr => ?_⟩
    obtain ⟨ops, ho, h'⟩ := f1 s hs
    obtain ⟨s', k1, k2, k3⟩ := g _ h' (run_reachable ops (fun o h => (ho o h).1) s hr)
    exact ⟨s', k1, k2, (run_later L ops (fun o h => (ho o h).1) s).trans k3⟩

/-- two servers registered with each other stay so -/
theorem mutual_later {A B A' B' : Server} {pa pb : Nat} {eb ea : Peer} (M : Mutual C A B pa pb eb ea) (la : Later A A') (lb : Later B B') (ra : Reachable C A') (rb : Reachable C B') :
    ∃ eb' ea', Mutual C A' B' pa pb eb' ea' := by
  obtain ⟨eb', h1, ⟨s1, s2, s3, s4⟩, -⟩ := la.peers pa eb M.atA
  obtain ⟨ea', g1, ⟨t1, t2, t3, t4⟩, -⟩ := lb.peers pb ea M.atB
  refine ⟨eb', ea', ra, rb, ?_, ?_, h1, g1, ?_, ?_, ?_, ?_, ?_⟩
  · rw [la.sskm, la.spkm]; exact M.pairA
  · rw [lb.sskm, lb.spkm]; exact M.pairB
  · rw [s2, lb.spkm, M.keyB]
  · rw [t2, la.spkm, M.keyA]
  · rw [t1, s1, M.psk]
  · rw [t3, s3, M.version]
  · rw [t4, s4, M.osk]

/-- **C120.** The link lasts: after any rounds of the event loop on either host, whatever arrived and was sent, the daemons are still registered with each other, and
each still hands its keys to the device of the other. -/
theorem rp_hosts_stay_linked (L : C.Lawful) {wA wB : World} {oA oB : RpExchange.Options} {a b : App} {i j : Nat} {pB pA : RpExchange.Peer} {wgpkA wgpkB : Bytes}
    (linked : ∃ sA sB eb ea, a.site = .product sA ∧ b.site = .product sB ∧ Mutual C sA sB i j eb ea) (goA : KeysGoTo wA oA a i pB wgpkB) (goB : KeysGoTo wB oB b j pA wgpkA)
    (esA esB : List _root_.Verif.World) (hA : ∀ e ∈ esA, e.WF C) (hB : ∀ e ∈ esB, e.WF C) :
    (∃ sA sB eb ea, (rounds C a esA).site = .product sA ∧ (rounds C b esB).site = .product sB ∧ Mutual C sA sB i j eb ea) ∧
    KeysGoTo wA oA (rounds C a esA) i pB wgpkB ∧ KeysGoTo wB oB (rounds C b esB) j pA wgpkA := by
  obtain ⟨FA, fa⟩ := rounds_frame L esA hA a
  obtain ⟨FB, fb⟩ := rounds_frame L esB hB b
  refine ⟨?_, ?_, ?_⟩
  · obtain ⟨sA, sB, eb, ea, h1, h2, M⟩ := linked
    obtain ⟨sA', k1, k2, k3⟩ := fa sA h1 M.reachA
    obtain ⟨sB', l1, l2, l3⟩ := fb sB h2 M.reachB
    obtain ⟨eb', ea', M'⟩ := mutual_later M k3 l3 k2 l2
    exact ⟨sA', sB', eb', ea', k1, l1, M'⟩
  · obtain ⟨ap, h1, h2, h3⟩ := goA
    obtain ⟨ap', g1, g2, g3⟩ := FA.peers i ap h1
    exact ⟨ap', g1, g2.trans h2, g3.trans h3⟩
  · obtain ⟨ap, h1, h2, h3⟩ := goB
    obtain ⟨ap', g1, g2, g3⟩ := FB.peers j ap h1
    exact ⟨ap', g1, g2.trans h2, g3.trans h3⟩

end Verif.RpMain
