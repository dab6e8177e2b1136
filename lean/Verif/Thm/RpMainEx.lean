import Verif.Thm.RpMain
/-
Concrete runs of `rp`: two hosts set up as the manual says; and what an empty directory name does.
-/
namespace Verif.RpMain
open FileIO KeyGen

/-- **C119, false of the code.** An empty directory name is taken for one that does not exist, and can be created: `rp pubkey D ""` replaces `wgpk` and `pqpk` in the current directory. -/
theorem rp_empty_dir_overwrites {C : Crypto} {w : World} (hw : w.WF) (h : Host) (hd : h.dirs "" = none) (hm : w.mkdir = .created) {d : String} {wgsk pqsk pqpk : Bytes} (ho : OwnDir h.fs d wgsk pqsk pqpk)
    (hl : wgsk.length = 32) (hr : (loadB64 h.fs (join d "wgsk") WG_B64_LEN (w.init (join d "wgsk")) (w.reads (join d "wgsk"))).isSome)
    (he : ∀ e, loadB64 h.fs (join d "wgsk") WG_B64_LEN (w.init (join d "wgsk")) (w.reads (join d "wgsk")) ≠ some (.error e)) (g : w.w1.Good (b64Enc (w.x25519 wgsk)).length) :
    ∃ f, (run C w ["rp", "pubkey", d, ""] h).host.fs "wgpk" = some f ∧ f.content = b64Enc (w.x25519 wgsk) := by
  have hp : Rp.parse w.lib ["rp", "pubkey", d, ""] = some ⟨false, some (.pubKey d "")⟩ := by unfold Rp.parse; simp [Rp.cliLoop]
  have hj : join "" "wgpk" = "wgpk" := by decide
  unfold run
  rw [hp]
  dsimp only
  show ∃ f, (pubkey h.fs w.umask w.x25519 (h.dirs "") d "" (w.init (join d "wgsk")) w.mkdir (w.reads (join d "wgsk")) w.w1 w.w2).2.1 "wgpk" = some f ∧ _
  rw [hd, hm]
  obtain ⟨fw, g1, g2⟩ := ho.wgsk
  rcases pubkey_cases h.fs w.umask w.x25519 d "" (w.init (join d "wgsk")) (w.reads (join d "wgsk")) w.w1 w.w2 hw.curve with ⟨c, -⟩ | ⟨k, hk, c⟩
  · cases hx : loadB64 h.fs (join d "wgsk") WG_B64_LEN (w.init (join d "wgsk")) (w.reads (join d "wgsk")) with
    | none => rw [hx] at hr; cases hr
    | some x =>
      cases x with
      | error e => exact absurd hx (he e)
      | ok k => exact absurd hx (c k)
  · have hk := load_key g1 g2 (by rw [hl, hw.init]) hk
    subst hk
    have hput := put_spec h.fs w.umask (join "" "wgpk") .pub (b64Enc (w.x25519 k)) w.w1
    rcases c with ⟨c, -⟩ | ⟨c, -, e⟩
    · exact absurd (hput.2.2.2 g) c
    · rw [e, (copy_spec _ (join d "pqpk") (join "" "pqpk") w.w2).1 "wgpk" (by decide)]
      have := hput.2.2.1 c
      rw [hj] at this
      exact this

namespace Demo

def lib : Rp.Lib Addr := ⟨fun s => if s = "0.0.0.0:9999" then some (.v4 [0, 0, 0, 0] 9999) else if s = "10.0.0.1:9999" then some (.v4 [10, 0, 0, 1] 9999) else none,
  fun s => if s = "25" then some 25 else none⟩
/-- the world of host `n` -/
def w (n : UInt8) : World := {
  umask := 0o077, lib := lib, readable := fun _ => true, reads := fun _ => List.replicate 80 (.ok 80), init := fun _ => List.replicate 32 0
  skLen := 3, pkLen := 3, x25519 := fun b => (b.map (· + 1)).take 32 ++ List.replicate (32 - b.length) 0
  wgsk := List.replicate 32 n, pqsk := [n, 1, 2], pqpk := [n, 1, 2], mkdir := .created, w1 := KeyGen.Demo.go, w2 := KeyGen.Demo.go, w3 := KeyGen.Demo.go
  toml := fun _ => none, resolve := fun p => if p = "10.0.0.1:9999" then some [.v4 [10, 0, 0, 1] 9999] else none
  env := RpExchange.Demo.env }
def empty : Host := ⟨fun _ => none, fun _ => none⟩

/-- host `n` after `genkey` and `pubkey` -/
def ready (n : UInt8) : Host := (run Toy.crypto (w n) ["rp", "pubkey", "keys", "pub"] (run Toy.crypto (w n) ["rp", "genkey", "keys"] empty).host).host
/-- and with the public keys of host `m` copied to `peer` -/
def linked (n m : UInt8) : Host := ⟨fun p => if p = "peer/wgpk" then (ready m).fs "pub/wgpk" else if p = "peer/pqpk" then (ready m).fs "pub/pqpk" else (ready n).fs p, (ready n).dirs⟩

inductive Seen where
  | exit (n : Nat) | killed | panic | serving (peers : List (Option (Nat × String)))
  deriving DecidableEq
def Seen.of : Done → Seen
  | .exit n => .exit n
  | .killed => .killed
  | .panic => .panic
  | .serving a _ => .serving (a.peers.map (·.broker))

def lineA : List String := ["rp", "exchange", "keys", "dev", "wg0", "listen", "0.0.0.0:9999", "peer", "peer", "persistent-keepalive", "25"]
def lineB : List String := ["rp", "exchange", "keys", "peer", "peer", "endpoint", "10.0.0.1:9999"]

set_option maxRecDepth 100000 in
/-- the setup: both commands succeed on both hosts, and both daemons serve (the name of the broker configuration is the base64 of the WireGuard key in it) -/
example : Seen.of (run Toy.crypto (w 5) ["rp", "genkey", "keys"] empty).done = .exit 0 ∧
    Seen.of (run Toy.crypto (w 5) ["rp", "pubkey", "keys", "pub"] (run Toy.crypto (w 5) ["rp", "genkey", "keys"] empty).host).done = .exit 0 ∧
    Seen.of (run Toy.crypto (w 7) ["rp", "pubkey", "keys", "pub"] (run Toy.crypto (w 7) ["rp", "genkey", "keys"] empty).host).done = .exit 0 ∧
    Seen.of (run Toy.crypto (w 5) lineA (linked 5 7)).done = .serving [some (0, "CAgICAgICAgICAgICAgICAgICAgICAgICAgICAgICAg=")] ∧
    Seen.of (run Toy.crypto (w 7) lineB (linked 7 5)).done = .serving [some (0, "BgYGBgYGBgYGBgYGBgYGBgYGBgYGBgYGBgYGBgYGBgY=")] := by
  refine ⟨?_, ?_, ?_, ?_, ?_⟩ <;> decide +kernel

set_option maxRecDepth 100000 in
/-- a second `genkey`, a second `pubkey`, a missing configuration, no command, `help` -/
example : Seen.of (run Toy.crypto (w 5) ["rp", "genkey", "keys"] (ready 5)).done = .exit 1 ∧ Seen.of (run Toy.crypto (w 5) ["rp", "pubkey", "keys", "pub"] (ready 5)).done = .exit 1 ∧
    Seen.of (run Toy.crypto (w 5) ["rp", "exchange-config", "none"] (ready 5)).done = .panic ∧ Seen.of (run Toy.crypto (w 5) ["rp"] (ready 5)).done = .exit 1 ∧
    Seen.of (run Toy.crypto (w 5) ["rp", "genkey", "keys", "help"] empty).done = .exit 0 ∧
    ((run Toy.crypto (w 5) ["rp", "pubkey", "keys", ""] ⟨fun p => if p = "wgpk" then some ⟨[1], 0⟩ else (ready 5).fs p, (ready 5).dirs⟩).host.fs "wgpk").map (·.content.length) = some 44 := by
  refine ⟨?_, ?_, ?_, ?_, ?_, ?_⟩ <;> decide +kernel

theorem wf (n : UInt8) : (w n).WF := by
  refine ⟨fun _ => rfl, rfl, fun b => ?_, RpExchange.Demo.wf.rnd⟩
  show ((b.map (· + 1)).take 32 ++ List.replicate (32 - b.length) 0).length = 32
  simp; omega
theorem emptyWF : empty.WF ∧ empty.Typed := ⟨fun _ _ _ _ h => (by cases h), fun _ _ h => (by cases h)⟩

theorem join_prefix {d n p : String} (h : join d n = p) (hd : d ≠ "") : (d.toList.getLast? = some '/' ∧ d.toList <+: p.toList) ∨ (d.toList ++ ['/']) <+: p.toList := by
  unfold join at h
  split at h
  · rename_i hc
    rcases hc with hc | hc
    · exact absurd hc hd
    · exact .inl ⟨hc, n.toList, by rw [← h, String.toList_append]⟩
  · exact .inr ⟨n.toList, by rw [← h]; simp [String.toList_append]⟩

/-- host 5 after `genkey`, where the directory can also be named with a slash at the end -/
def mid (n : UInt8) : Host := ⟨(run Toy.crypto (w n) ["rp", "genkey", "keys"] empty).host.fs, fun d => if d = "keys" ∨ d = "keys/" then some 0o040700 else none⟩

/-- the hypotheses of `rp_keys_prepared` on the host between the two commands -/
theorem midWF (n : UInt8) : (mid n).WF ∧ (mid n).Typed := by
  refine ⟨fun d m f hd hf => ?_, fun d m h => ?_⟩
  · have hp : join d m = "keys/wgsk" ∨ join d m = "keys/pqsk" ∨ join d m = "keys/pqpk" := by
      refine Classical.byContradiction fun hn => ?_
      simp only [not_or] at hn
      have : (mid n).fs (join d m) = none := by
        show (genkeyIn (fun _ => none) 0o077 "keys" (w n).wgsk (w n).pqsk (w n).pqpk (w n).w1 (w n).w2 (w n).w3).2 (join d m) = none
        have hj : join "keys" "wgsk" = "keys/wgsk" ∧ join "keys" "pqsk" = "keys/pqsk" ∧ join "keys" "pqpk" = "keys/pqpk" := by decide
        have := genkeyIn_fresh (fun _ => none) 0o077 "keys" (w n).wgsk (w n).pqsk (w n).pqpk rfl (w n).w1 (w n).w2 (w n).w3 ⟨rfl, rfl, rfl⟩
        have p1 := fun fs v data w' => (put_spec fs 0o077 (join "keys" "wgsk") v data w').1 (join d m) (by rw [hj.1]; exact hn.1)
        have p2 := fun fs v data w' => (put_spec fs 0o077 (join "keys" "pqsk") v data w').1 (join d m) (by rw [hj.2.1]; exact hn.2.1)
        have p3 := fun fs v data w' => (put_spec fs 0o077 (join "keys" "pqpk") v data w').1 (join d m) (by rw [hj.2.2]; exact hn.2.2)
        rcases this with ⟨-, e⟩ | ⟨-, -, e⟩ | ⟨-, -, e⟩
        · rw [e]; dsimp only; rw [p1]
        · rw [e]; dsimp only; rw [p3, p1]
        · rw [e]; dsimp only; rw [p2, p3, p1]
      rw [this] at hf; cases hf
    have key : ∀ p : String, (∀ k < 10, ((p.toList.take k).getLast? = some '/' ∨ (p.toList.take k ++ ['/']) <+: p.toList) → p.toList.take k = [] ∨ p.toList.take k = "keys".toList ∨ p.toList.take k = "keys/".toList) →
        p.toList.length < 10 → join d m = p → (mid n).dirs d ≠ none := by
      intro p hk hl hj
      have hj := join_prefix hj hd
      have hpre : d.toList <+: p.toList := by
        rcases hj with h | h
        · exact h.2
        · exact (List.prefix_append _ _).trans h
      have ht : d.toList = p.toList.take d.toList.length := by
        obtain ⟨t, ht⟩ := hpre; rw [← ht]; simp
      have hlen : d.toList.length ≤ p.toList.length := hpre.length_le
      have := hk d.toList.length (by omega)
      rw [← ht] at this
      rcases this (hj.imp (fun h => h.1) id) with h | h | h
      · exact absurd (String.ext (by rw [h]; rfl)) hd
      · have : d = "keys" := String.ext h
        unfold mid; dsimp only; rw [if_pos (.inl this)]; exact Option.some_ne_none _
      · have : d = "keys/" := String.ext h
        unfold mid; dsimp only; rw [if_pos (.inr this)]; exact Option.some_ne_none _
    rcases hp with hp | hp | hp
    · exact key _ (by decide) (by decide) hp
    · exact key _ (by decide) (by decide) hp
    · exact key _ (by decide) (by decide) hp
  · unfold mid at h
    dsimp only at h
    split at h
    · cases h; exact ⟨0o040000, 0o700, by decide, by decide⟩
    · cases h

set_option maxRecDepth 100000 in
example : Seen.of (run Toy.crypto (w 5) ["rp", "pubkey", "keys", "pub"] (mid 5)).done = .exit 0 := by decide +kernel

end Demo
end Verif.RpMain
