import Verif.Model.RpMain
import Verif.Thm.RpKey
import Verif.Thm.RpExchange
import Verif.Thm.RpCli
import Verif.Thm.KeyAgreement
/-
The command `rp`: exit status and files (C119), and the setup of two hosts (C120).
-/
namespace Verif.RpMain
open FileIO KeyGen
open RpExchange (Given Runs devName plan OwnKeys)
open NativeUnix (txt)
open _root_.Verif.Server (Reachable)
variable {C : Crypto}

/-! ### Specification -/

/-- the sizes that types guarantee: WireGuard secrets and points have 32 bytes -/
structure World.WF (w : World) : Prop where
  init : ∀ p, (w.init p).length = 32
  wgsk : w.wgsk.length = 32
  curve : ∀ b, (w.x25519 b).length = 32
  rnd : App.rndOk w.env.app.rnd

/-- a file of a directory is there only if the directory is -/
def Host.WF (h : Host) : Prop := ∀ d n f, d ≠ "" → h.fs (join d n) = some f → h.dirs d ≠ none

/-- a directory with a complete set of own keys -/
structure OwnDir (fs : Fs) (d : String) (wgsk pqsk pqpk : Bytes) : Prop where
  wgsk : ∃ f, fs (join d "wgsk") = some f ∧ f.content = b64Enc wgsk
  pqsk : ∃ f, fs (join d "pqsk") = some f ∧ f.content = pqsk
  pqpk : ∃ f, fs (join d "pqpk") = some f ∧ f.content = pqpk

/-- a directory with the public keys of someone -/
structure PubDir (fs : Fs) (d : String) (wgpk pqpk : Bytes) : Prop where
  wgpk : ∃ f, fs (join d "wgpk") = some f ∧ f.content = b64Enc wgpk
  pqpk : ∃ f, fs (join d "pqpk") = some f ∧ f.content = pqpk

/-! ### Proofs -/

theorem start_host (w : World) (h : Host) (o : RpExchange.Options) : (start C w h o).host = h := by
  unfold start
  split <;> rfl

theorem join_inj (d : String) {a b : String} (h : join d a = join d b) : a = b := Classical.byContradiction fun hn => join_ne d hn h

/-- **C119, in part.** No command of `rp` changes an existing file, whatever fails and wherever the process is killed (except as in `rp_empty_dir_overwrites`). -/
theorem rp_files_kept_partial {w : World} (hw : w.WF) (args : List String) (h : Host) (hh : h.WF) (hne : ∀ c priv, Rp.parse w.lib args = some c → c.command ≠ some (.pubKey priv ""))
    (p : String) (f : File) (hp : h.fs p = some f) : (run C w args h).host.fs p = some f := by
  unfold run
  cases hpar : Rp.parse w.lib args with
  | none => exact hp
  | some cli =>
    dsimp only
    cases hc : cli.command with
    | none => exact hp
    | some cmd =>
      cases cmd with
      | genKey d => exact rp_genkey_keeps_existing _ _ _ _ _ _ _ _ _ _ _ p f hp
      | pubKey priv pub =>
        have hpub : pub ≠ "" := fun e => hne cli priv hpar (by rw [hc, e])
        show (pubkey h.fs w.umask w.x25519 (h.dirs pub) priv pub (w.init (join priv "wgsk")) w.mkdir (w.reads (join priv "wgsk")) w.w1 w.w2).2.1 p = some f
        obtain ⟨f1, f2⟩ := pubkey_frame h.fs w.umask w.x25519 hw.curve (h.dirs pub) priv pub (w.init (join priv "wgsk")) w.mkdir (w.reads (join priv "wgsk")) w.w1 w.w2
        by_cases hd : h.dirs pub = none
        · rw [f1 p (fun e => hh pub _ f hpub (e ▸ hp) hd) (fun e => hh pub _ f hpub (e ▸ hp) hd)]; exact hp
        · rw [f2 hd]; exact hp
      | exchange o => dsimp only; rw [start_host]; exact hp
      | exchangeConfig file =>
        dsimp only
        split
        · exact hp
        · split
          · exact hp
          · rw [start_host]; exact hp
      | help => exact hp

/-- What a command is to achieve. For `help`: nothing. -/
def Achieved (w : World) (h h' : Host) : Rp.Command Addr → Prop
  | .genKey d => h.dirs d = none ∧ (d ≠ "" → OwnDir h'.fs d w.wgsk w.pqsk w.pqpk)
  | .pubKey priv pub => ∀ wgsk pqsk pqpk, OwnDir h.fs priv wgsk pqsk pqpk → wgsk.length = 32 → join priv "pqpk" ≠ join pub "wgpk" → PubDir h'.fs pub (w.x25519 wgsk) pqpk
  | .exchange _ => False
  | .exchangeConfig _ => False
  | .help => True

theorem load_key {fs : Fs} {p : String} {f : File} (hf : fs p = some f) {key : Bytes} (hc : f.content = b64Enc key) {n : Nat} {init k : Bytes} {os : List Out}
    (hl : key.length = init.length) (h : loadB64 fs p n init os = some (.ok k)) : k = key := by
  obtain ⟨e, he, hle, hke, hke'⟩ := b64_load_accepts_partial fs p f hf n init k os h
  have : e = key := by
    have := congrArg b64DecBlocks (he.symm.trans hc)
    rw [b64DecBlocks_enc, b64DecBlocks_enc] at this
    exact Option.some.inj this
  rw [hke' (by rw [this, hl]), this]

theorem ofEnd_zero {e : End} (h : ofEnd e = .exit 0) : e = .ok := by cases e <;> cases h; rfl
theorem ofEnd_status {e : End} {n : Nat} (h : ofEnd e = .exit n) : n = 0 ∨ n = 1 := by cases e <;> cases h <;> simp

theorem ofEnd_panic (e : End) : ofEnd e ≠ .panic := by cases e <;> (intro h; cases h)

theorem start_status {w : World} {h : Host} {o : RpExchange.Options} {n : Nat} (hs : (start C w h o).done = .exit n) : n = 1 := by
  unfold start at hs
  split at hs <;> cases hs
  rfl

theorem genkey_ok_dir {fs : Fs} {umask : Nat} {d : DirMode} {dir : String} {wgsk pqsk pqpk : Bytes} {mk : Mk} {w1 w2 w3 : Wr}
    (hd : ∀ m, d = some m → ∃ t perm, t ∈ fileTypes ∧ m = t + perm) (h : (genkey fs umask d dir wgsk pqsk pqpk mk w1 w2 w3).1 = .ok) : d = none := by
  cases d with
  | none => rfl
  | some m =>
    obtain ⟨t, perm, ht, rfl⟩ := hd m rfl
    rw [rp_existing_directory_refused fs umask t perm ht] at h
    cases h

/-- directories have a mode that says so -/
def Host.Typed (h : Host) : Prop := ∀ d m, h.dirs d = some m → ∃ t perm, t ∈ fileTypes ∧ m = t + perm

/-- **C119.** The exit status of `rp` is 0 or 1 (or it panics or is killed), and 0 only if the command of the line has been carried out: `genkey` made the directory with the
complete set of fresh keys; `pubkey` exported the public keys of the given directory; `exchange` never exits with 0 before it serves. -/
theorem rp_exit_status {w : World} (hw : w.WF) (args : List String) (h : Host) (hh : h.WF) (ht : h.Typed) :
    (∀ n, (run C w args h).done = .exit n → n = 0 ∨ n = 1) ∧
    ((run C w args h).done = .exit 0 → ∃ cli cmd, Rp.parse w.lib args = some cli ∧ cli.command = some cmd ∧ Achieved w h (run C w args h).host cmd) := by
  refine ⟨fun n hn => ?_, fun hz => ?_⟩
  · unfold run at hn
    split at hn
    · cases hn; exact .inr rfl
    · split at hn
      · cases hn
      · exact ofEnd_status hn
      · exact ofEnd_status hn
      · exact .inr (start_status hn)
      · split at hn
        · cases hn
        · split at hn
          · cases hn
          · exact .inr (start_status hn)
      · cases hn; exact .inl rfl
  · cases hpar : Rp.parse w.lib args with
    | none => unfold run at hz; rw [hpar] at hz; cases hz
    | some cli =>
      cases hc : cli.command with
      | none => unfold run at hz; rw [hpar] at hz; dsimp only at hz; rw [hc] at hz; cases hz
      | some cmd =>
        refine ⟨cli, cmd, rfl, hc, ?_⟩
        unfold run at hz ⊢
        rw [hpar] at hz ⊢
        dsimp only at hz ⊢
        rw [hc] at hz ⊢
        cases cmd with
        | genKey d =>
          have he : (genkey h.fs w.umask (h.dirs d) d w.wgsk w.pqsk w.pqpk w.mkdir w.w1 w.w2 w.w3).1 = .ok := ofEnd_zero hz
          have hd := genkey_ok_dir (fun m hm => ht d m hm) he
          refine ⟨hd, fun hne => ?_⟩
          show OwnDir (genkey h.fs w.umask (h.dirs d) d w.wgsk w.pqsk w.pqpk w.mkdir w.w1 w.w2 w.w3).2.1 d w.wgsk w.pqsk w.pqpk
          rw [hd] at he ⊢
          have fresh : ∀ n, h.fs (join d n) = none := by
            intro n
            cases hf : h.fs (join d n) with
            | none => rfl
            | some f => exact absurd hd (hh d n f hne hf)
          obtain ⟨k1, k2, k3⟩ := rp_genkey_success_partial h.fs w.umask d w.wgsk w.pqsk w.pqpk hw.wgsk w.mkdir w.w1 w.w2 w.w3 ⟨fresh _, fresh _, fresh _⟩ he
          exact ⟨k1, k2, k3⟩
        | pubKey priv pub =>
          have he : (pubkey h.fs w.umask w.x25519 (h.dirs pub) priv pub (w.init (join priv "wgsk")) w.mkdir (w.reads (join priv "wgsk")) w.w1 w.w2).1 = .ok := ofEnd_zero hz
          intro wgsk pqsk pqpk ho hl hne
          show PubDir (pubkey h.fs w.umask w.x25519 (h.dirs pub) priv pub (w.init (join priv "wgsk")) w.mkdir (w.reads (join priv "wgsk")) w.w1 w.w2).2.1 pub (w.x25519 wgsk) pqpk
          obtain ⟨-, k, hk, hwg, f, hf, hp⟩ := pubkey_exports h.fs w.umask w.x25519 hw.curve (h.dirs pub) priv pub hne _ w.mkdir _ w.w1 w.w2 he
          obtain ⟨fw, g1, g2⟩ := ho.wgsk
          obtain ⟨fp, g3, g4⟩ := ho.pqpk
          have := load_key g1 g2 (by rw [hl, hw.init]) hk
          rw [this] at hwg
          rw [hf] at g3; cases g3
          exact ⟨hwg, f, hp, g4⟩
        | exchange o => have := start_status hz; omega
        | exchangeConfig file =>
          dsimp only at hz
          split at hz
          · cases hz
          · split at hz
            · cases hz
            · have := start_status hz; omega
        | help => trivial

/-- **C119** (directories). A command changes only the directory that it was told to create; the empty path names none. -/
theorem rp_dirs_kept (w : World) (args : List String) (h : Host) (p : String) (hp : (run C w args h).host.dirs p ≠ h.dirs p) :
    p ≠ "" ∧ ∃ c, Rp.parse w.lib args = some c ∧ (c.command = some (.genKey p) ∨ ∃ priv, c.command = some (.pubKey priv p)) := by
  unfold run at hp
  cases hc : Rp.parse w.lib args with
  | none => rw [hc] at hp; exact absurd rfl hp
  | some c =>
    rw [hc] at hp
    dsimp only at hp
    cases hk : c.command with
    | none => rw [hk] at hp; exact absurd rfl hp
    | some k =>
      rw [hk] at hp
      cases k with
      | genKey d =>
        dsimp only [setDir] at hp
        by_cases g : p = d ∧ d ≠ ""
        · obtain ⟨rfl, g⟩ := g
          exact ⟨g, c, rfl, .inl hk⟩
        · rw [if_neg g] at hp; exact absurd rfl hp
      | pubKey priv d =>
        dsimp only [setDir] at hp
        by_cases g : p = d ∧ d ≠ ""
        · obtain ⟨rfl, g⟩ := g
          exact ⟨g, c, rfl, .inr ⟨priv, hk⟩⟩
        · rw [if_neg g] at hp; exact absurd rfl hp
      | exchange o => exact absurd (by dsimp only; rw [start_host]) hp
      | exchangeConfig f =>
        dsimp only at hp
        split at hp
        · exact absurd rfl hp
        · split at hp
          · exact absurd rfl hp
          · exact absurd (by rw [start_host]) hp
      | help => exact absurd rfl hp

theorem genkey_left {fs : Fs} {umask : Nat} {dir : String} {wgsk pqsk pqpk : Bytes} {mk : Mk} {w1 w2 w3 : Wr}
    (h : (genkey fs umask none dir wgsk pqsk pqpk mk w1 w2 w3).1 = .ok) : ∃ m, (genkey fs umask none dir wgsk pqsk pqpk mk w1 w2 w3).2.2 = some m ∧ 0o040000 ≤ m := by
  cases mk with
  | killed => cases h
  | err => cases h
  | created => exact ⟨_, rfl, Nat.left_le_or⟩

theorem pubkey_left {fs : Fs} {umask : Nat} {x : Bytes → Bytes} {d : DirMode} {priv pub : String} {init : Bytes} {mk : Mk} {rs : List Out} {w1 w2 : Wr}
    (h : (pubkey fs umask x d priv pub init mk rs w1 w2).1 = .ok) : ∃ m, (pubkey fs umask x d priv pub init mk rs w1 w2).2.2 = some m := by
  unfold pubkey at h ⊢
  split
  · exact ⟨_, rfl⟩
  · split
    · cases h
    · cases h
    · dsimp only
      split
      · split <;> exact ⟨_, rfl⟩
      · exact ⟨_, rfl⟩

/-- **C119** (directories). Once `genkey` or `pubkey` has been carried out, the directory is there: the same command fails whenever it is run again, and changes nothing. -/
theorem rp_not_repeatable {w w' : World} {args : List String} {h : Host} (ht : h.Typed) (hl : w'.lib = w.lib) {c : Rp.Cli Addr} {d : String} (hc : Rp.parse w.lib args = some c)
    (hk : c.command = some (.genKey d) ∨ ∃ priv, c.command = some (.pubKey priv d)) (hd : d ≠ "") (hz : (run C w args h).done = .exit 0) :
    (run C w' args (run C w args h).host).done = .exit 1 ∧ (run C w' args (run C w args h).host).host = (run C w args h).host := by
  have same : ∀ (x : Host) (m : DirMode), x.dirs d = m → setDir x d m x.fs = x := by
    intro x m hx
    unfold setDir
    have : (fun p => if p = d ∧ d ≠ "" then m else x.dirs p) = x.dirs := by
      funext p
      split
      · rename_i g; rw [g.1, hx]
      · rfl
    rw [this]
  rcases hk with hk | ⟨priv, hk⟩
  · have e1 : ∀ (v : World) (x : Host), v.lib = w.lib → run C v args x = (let (e, fs, m) := genkey x.fs v.umask (x.dirs d) d v.wgsk v.pqsk v.pqpk v.mkdir v.w1 v.w2 v.w3
        ⟨ofEnd e, setDir x d m fs, []⟩) := by
      intro v x hv; unfold run; rw [hv, hc]; dsimp only; rw [hk]
    rw [e1 w h rfl] at hz
    dsimp only at hz
    have hok : (genkey h.fs w.umask (h.dirs d) d w.wgsk w.pqsk w.pqpk w.mkdir w.w1 w.w2 w.w3).1 = .ok := by
      revert hz; cases (genkey h.fs w.umask (h.dirs d) d w.wgsk w.pqsk w.pqpk w.mkdir w.w1 w.w2 w.w3).1 <;> intro hz <;> cases hz <;> rfl
    have hnone := genkey_ok_dir (fun m hm => ht d m hm) hok
    rw [hnone] at hok
    obtain ⟨m, hm, hge⟩ := genkey_left hok
    have hdir : (run C w args h).host.dirs d = some m := by
      rw [e1 w h rfl, hnone]
      show (if d = d ∧ d ≠ "" then _ else _) = _
      rw [if_pos ⟨rfl, hd⟩]; exact hm
    rw [e1 w' _ hl, hdir]
    have : genkey (run C w args h).host.fs w'.umask (some m) d w'.wgsk w'.pqsk w'.pqpk w'.mkdir w'.w1 w'.w2 w'.w3 = (.refused, (run C w args h).host.fs, some m) := by
      unfold genkey; dsimp only; rw [if_pos (by omega)]
    rw [this]
    exact ⟨rfl, same _ _ hdir⟩
  · have e1 : ∀ (v : World) (x : Host), v.lib = w.lib → run C v args x =
        (let (e, fs, m) := pubkey x.fs v.umask v.x25519 (x.dirs d) priv d (v.init (join priv "wgsk")) v.mkdir (v.reads (join priv "wgsk")) v.w1 v.w2
        ⟨ofEnd e, setDir x d m fs, []⟩) := by
      intro v x hv; unfold run; rw [hv, hc]; dsimp only; rw [hk]
    rw [e1 w h rfl] at hz
    dsimp only at hz
    have hok : (pubkey h.fs w.umask w.x25519 (h.dirs d) priv d (w.init (join priv "wgsk")) w.mkdir (w.reads (join priv "wgsk")) w.w1 w.w2).1 = .ok := by
      revert hz; cases (pubkey h.fs w.umask w.x25519 (h.dirs d) priv d (w.init (join priv "wgsk")) w.mkdir (w.reads (join priv "wgsk")) w.w1 w.w2).1 <;> intro hz <;> cases hz <;> rfl
    obtain ⟨m, hm⟩ := pubkey_left hok
    have hdir : (run C w args h).host.dirs d = some m := by
      rw [e1 w h rfl]
      show (if d = d ∧ d ≠ "" then _ else _) = _
      rw [if_pos ⟨rfl, hd⟩]; exact hm
    rw [e1 w' _ hl, hdir]
    exact ⟨rfl, same _ _ hdir⟩

/-- the options of `exchange`: those of the words of the command line, or those of a file -/
inductive Told (w : World) (args : List String) (h : Host) : RpExchange.Options → Prop
  | line (c : Rp.Cli Addr) (o : Rp.Options Addr) : Rp.parse w.lib args = some c → c.command = some (.exchange o) →
      Told w args h ⟨o.dir, o.dev, o.ip, o.listen, o.peers.map (fun p => ⟨p.dir, p.endpoint, p.keepalive, p.allowedIps, .v02⟩)⟩
  | file (c : Rp.Cli Addr) (f s : String) (o : RpExchange.Options) : Rp.parse w.lib args = some c → c.command = some (.exchangeConfig f) →
      text w h.fs f = some s → w.toml s = some o → Told w args h o

theorem told_unique {w : World} {args : List String} {h : Host} {o o' : RpExchange.Options} (t : Told w args h o) (t' : Told w args h o') : o = o' := by
  cases t with
  | line c x h1 h2 =>
    cases t' with
    | line c' x' g1 g2 => rw [h1] at g1; cases g1; rw [h2] at g2; cases g2; rfl
    | file c' f' s' o' g1 g2 g3 g4 => rw [h1] at g1; cases g1; rw [h2] at g2; cases g2
  | file c f s o h1 h2 h3 h4 =>
    cases t' with
    | line c' x' g1 g2 => rw [h1] at g1; cases g1; rw [h2] at g2; cases g2
    | file c' f' s' o' g1 g2 g3 g4 =>
      rw [h1] at g1; cases g1; rw [h2] at g2; cases g2; rw [h3] at g3; cases g3; rw [h4] at g4; cases g4; rfl

/-- with options, `rp` is `exchange` with these options -/
theorem run_told {w : World} {args : List String} {h : Host} {o : RpExchange.Options} (t : Told w args h o) : run C w args h = start C w h o := by
  unfold run
  cases t with
  | line c x h1 h2 => rw [h1]; dsimp only; rw [h2]; rfl
  | file c f s o h1 h2 h3 h4 => rw [h1]; dsimp only; rw [h2]; dsimp only; rw [h3]; dsimp only; rw [h4]

theorem got_some {α : Type} {r : R α} {a : α} (h : got r = some a) : r = some (.ok a) := by
  unfold got at h
  split at h
  · cases h; rfl
  · cases h
  · cases h

theorem disk_wf {w : World} (hw : w.WF) (fs : Fs) : RpExchange.WF (disk w fs) w.env := by
  refine ⟨fun p k h => ?_, hw.rnd⟩
  have h := got_some h
  cases hf : fs p with
  | none => unfold loadB64 at h; rw [hf] at h; cases h
  | some f =>
    obtain ⟨e, -, hle, hke, -⟩ := b64_load_accepts_partial fs p f hf _ _ _ _ h
    rw [hke, List.length_append, List.length_drop, hw.init]
    rw [hw.init] at hle
    omega

theorem start_panics (L : C.Lawful) {w : World} (hw : w.WF) {h : Host} {o : RpExchange.Options} (hp : (start C w h o).done = .panic) :
    w.env.rel = false ∧ ∃ a, (o.listen = some a ∨ ∃ p ∈ o.peers, p.endpoint = some a) ∧ a.portOf = 65535 := by
  have he : ∃ l, RpExchange.exchange C (disk w h.fs) w.env o = (.error .panic, l) := by
    unfold start at hp
    split at hp
    · cases hp
    · rename_i l hx; exact ⟨l, hx⟩
    · cases hp
  obtain ⟨l, he⟩ := he
  by_cases hk : ∃ x y z, OwnKeys (disk w h.fs) o x y z
  swap
  · rw [RpExchange.no_keys_nothing_done o (fun x y z hk' => hk ⟨x, y, z, hk'⟩)] at he; cases he
  obtain ⟨x, y, z, hk⟩ := hk
  obtain ⟨h1, h2⟩ := RpExchange.exchange_exact_partial (C := C) L (disk_wf hw h.fs) o x y z hk
  by_cases good : RpExchange.EnvOk w.env o ∧ (∀ a, o.listen = some a → RpExchange.HasNext w.env a) ∧ (∀ p ∈ o.peers, RpExchange.Loads (disk w h.fs) w.env p) ∧
      (o.peers.map (RpExchange.ident C (disk w h.fs))).Nodup
  · obtain ⟨a', socks', g1, -⟩ := h1 good
    rw [he] at g1; cases g1
  · obtain ⟨f, l', g1, -, g3⟩ := h2 good
    rw [he] at g1; cases g1
    have key : ∀ a, ¬ RpExchange.HasNext w.env a → w.env.rel = false ∧ a.portOf = 65535 := by
      intro a ha
      unfold RpExchange.HasNext at ha
      exact ⟨by cases hr : w.env.rel; rfl; exact absurd (.inl hr) ha, Classical.byContradiction fun hn => ha (.inr hn)⟩
    by_cases c1 : ∀ a, o.listen = some a → RpExchange.HasNext w.env a
    · by_cases c2 : ∀ p ∈ o.peers, ∀ a, p.endpoint = some a → RpExchange.HasNext w.env a
      · cases g3 c1 c2
      · simp only [Classical.not_forall, Classical.not_imp] at c2
        obtain ⟨p, hp, a, ha, hn⟩ := c2
        exact ⟨(key a hn).1, a, .inr ⟨p, hp, ha⟩, (key a hn).2⟩
    · simp only [Classical.not_forall, Classical.not_imp] at c1
      obtain ⟨a, ha, hn⟩ := c1
      exact ⟨(key a hn).1, a, .inl ha, (key a hn).2⟩

/-- **C119.** `rp` panics only if the file given to `exchange-config` cannot be read or is not a configuration, or over port 65535 (with overflow checks). -/
theorem rp_panics_partial (L : C.Lawful) {w : World} (hw : w.WF) (args : List String) (h : Host) (hp : (run C w args h).done = .panic) :
    (∃ c f, Rp.parse w.lib args = some c ∧ c.command = some (.exchangeConfig f) ∧ ∀ s, text w h.fs f = some s → w.toml s = none) ∨
    (∃ o, Told w args h o ∧ w.env.rel = false ∧ ∃ a, (o.listen = some a ∨ ∃ p ∈ o.peers, p.endpoint = some a) ∧ a.portOf = 65535) := by
  unfold run at hp
  split at hp
  · cases hp
  · rename_i cli hpar
    split at hp <;> rename_i hc
    · exact absurd hc (by
        unfold Rp.parse at hpar
        split at hpar
        · cases hpar
        · split at hpar
          · cases hpar
          · rename_i hn; cases hpar; intro e; rw [e] at hn; exact hn rfl)
    · exact absurd hp (ofEnd_panic _)
    · exact absurd hp (ofEnd_panic _)
    · rename_i o
      exact .inr ⟨_, .line cli o hpar hc, start_panics L hw hp⟩
    · rename_i f
      split at hp
      · rename_i ht
        exact .inl ⟨cli, f, hpar, hc, fun s hs => (by rw [ht] at hs; cases hs)⟩
      · rename_i s ht
        split at hp
        · rename_i hm
          exact .inl ⟨cli, f, hpar, hc, fun s' hs => (by rw [ht] at hs; cases hs; exact hm)⟩
        · rename_i o hm
          exact .inr ⟨o, .file cli f s o hpar hc ht hm, start_panics L hw hp⟩
    · cases hp

/-! ### Setting up -/

theorem disk_key {w : World} {fs : Fs} {p : String} {n : Nat} {b : Bytes} (h : got (FileIO.load fs p n (w.reads p)) = some b) : ∃ f, fs p = some f ∧ b = f.content := by
  have h := got_some h
  cases hf : fs p with
  | none => unfold FileIO.load at h; rw [hf] at h; cases h
  | some f => exact ⟨f, rfl, ((load_exact fs p f hf n _).1 b h).1⟩

theorem text_bytes {w : World} {fs : Fs} {p s : String} (h : text w fs p = some s) : ∃ f, fs p = some f ∧ txt s = f.content := by
  unfold text at h
  cases hf : fs p with
  | none => rw [hf] at h; cases h
  | some f =>
    rw [hf] at h
    dsimp only at h
    split at h
    · refine ⟨f, rfl, ?_⟩
      unfold String.fromUTF8? at h
      split at h
      · cases h; rfl
      · cases h
    · cases h

theorem id_of_key {key : Bytes} (hl : key.length = 32) {id : Bytes} (h : NativeUnix.peerIdB64 (b64Enc key) = some id) : id = key := by
  unfold NativeUnix.peerIdB64 b64Decode at h
  rw [b64_round_trip key (by intro e; rw [e] at hl; cases hl)] at h
  dsimp only at h
  rw [if_pos (by rw [hl, List.length_replicate])] at h
  cases h
  rw [List.drop_eq_nil_of_le (by rw [hl, List.length_replicate]), List.append_nil]

/-- What serves after `exchange`, in terms of the files. -/
theorem start_serves (L : C.Lawful) {w : World} (hw : w.WF) {h : Host} {o : RpExchange.Options} {a : App} {socks : List Startup.Sock} (hs : (start C w h o).done = .serving a socks)
    {wgsk pqsk pqpk : Bytes} (ho : OwnDir h.fs o.dir wgsk pqsk pqpk) (hl : wgsk.length = 32) :
    (start C w h o).effs = plan wgsk o ∧ Runs C (disk w h.fs) w.env o pqsk pqpk a socks := by
  have he : RpExchange.exchange C (disk w h.fs) w.env o = (.ok (a, socks), (start C w h o).effs) := by
    unfold start at hs ⊢
    split at hs
    · rename_i hx; cases hs; rw [hx]
    · cases hs
    · cases hs
  by_cases hk : ∃ x y z, OwnKeys (disk w h.fs) o x y z
  swap
  · rw [RpExchange.no_keys_nothing_done o (fun x y z hk' => hk ⟨x, y, z, hk'⟩)] at he; cases he
  obtain ⟨x, y, z, hk⟩ := hk
  obtain ⟨fw, w1, w2⟩ := ho.wgsk
  obtain ⟨fs_, s1, s2⟩ := ho.pqsk
  obtain ⟨fp, p1, p2⟩ := ho.pqpk
  have e1 : x = wgsk := load_key w1 w2 (by rw [hl, hw.init]) (got_some hk.wgsk)
  have e2 : y = pqsk := by obtain ⟨f, g1, g2⟩ := disk_key hk.sk; rw [s1] at g1; cases g1; rw [g2, s2]
  have e3 : z = pqpk := by obtain ⟨f, g1, g2⟩ := disk_key hk.pk; rw [p1] at g1; cases g1; rw [g2, p2]
  subst e1 e2 e3
  obtain ⟨h1, h2⟩ := RpExchange.exchange_exact_partial (C := C) L (disk_wf hw h.fs) o x y z hk
  by_cases good : RpExchange.EnvOk w.env o ∧ (∀ a, o.listen = some a → RpExchange.HasNext w.env a) ∧ (∀ p ∈ o.peers, RpExchange.Loads (disk w h.fs) w.env p) ∧
      (o.peers.map (RpExchange.ident C (disk w h.fs))).Nodup
  · obtain ⟨a', socks', g1, g2⟩ := h1 good
    rw [he] at g1
    obtain ⟨g1, g3⟩ := Prod.mk.inj g1
    cases g1
    exact ⟨g3, g2⟩
  · obtain ⟨f, l, g1, -⟩ := h2 good
    rw [he] at g1; cases g1

/-- **C120, first part.** After `rp genkey D` and `rp pubkey D P` (both successful, the keys left alone in between), `D` holds the fresh secrets and `P` the public keys that
belong to them. -/
theorem rp_keys_prepared {w1 w2 : World} (hw1 : w1.WF) (hw2 : w2.WF) {h0 h1 : Host} (hh0 : h0.WF) (ht0 : h0.Typed) (hh1 : h1.WF) (ht1 : h1.Typed) {d p : String} (hd : d ≠ "") (hp : p ≠ "")
    (r1 : (run C w1 ["rp", "genkey", d] h0).done = .exit 0)
    (keep : ∀ n f, (run C w1 ["rp", "genkey", d] h0).host.fs (join d n) = some f → h1.fs (join d n) = some f)
    (r2 : (run C w2 ["rp", "pubkey", d, p] h1).done = .exit 0) :
    OwnDir (run C w2 ["rp", "pubkey", d, p] h1).host.fs d w1.wgsk w1.pqsk w1.pqpk ∧ PubDir (run C w2 ["rp", "pubkey", d, p] h1).host.fs p (w2.x25519 w1.wgsk) w1.pqpk := by
  have p1 : ∀ w : World, Rp.parse w.lib ["rp", "genkey", d] = some ⟨false, some (.genKey d)⟩ := fun w => by
    unfold Rp.parse; simp [Rp.cliLoop]
  have p2 : ∀ w : World, Rp.parse w.lib ["rp", "pubkey", d, p] = some ⟨false, some (.pubKey d p)⟩ := fun w => by
    unfold Rp.parse; simp [Rp.cliLoop]
  obtain ⟨c1, x1, q1, q2, a1⟩ := (rp_exit_status (C := C) hw1 ["rp", "genkey", d] h0 hh0 ht0).2 r1
  rw [p1] at q1; cases q1; cases q2
  obtain ⟨c2, x2, q1, q2, a2⟩ := (rp_exit_status (C := C) hw2 ["rp", "pubkey", d, p] h1 hh1 ht1).2 r2
  rw [p2] at q1; cases q1; cases q2
  have own := a1.2 hd
  have own1 : OwnDir h1.fs d w1.wgsk w1.pqsk w1.pqpk := by
    obtain ⟨f1, x1, y1⟩ := own.wgsk
    obtain ⟨f2, x2, y2⟩ := own.pqsk
    obtain ⟨f3, x3, y3⟩ := own.pqpk
    exact ⟨⟨f1, keep _ _ x1, y1⟩, ⟨f2, keep _ _ x2, y2⟩, ⟨f3, keep _ _ x3, y3⟩⟩
  have hne : ∀ c priv, Rp.parse w2.lib ["rp", "pubkey", d, p] = some c → c.command ≠ some (.pubKey priv "") := by
    intro c priv hc he
    rw [p2] at hc; cases hc
    exact hp (by injection he with he; injection he)
  have kept := rp_files_kept_partial (C := C) hw2 ["rp", "pubkey", d, p] h1 hh1 hne
  have hpn : h1.dirs p = none := by
    cases hm : h1.dirs p with
    | none => rfl
    | some m =>
      unfold run at r2
      rw [p2] at r2
      dsimp only at r2
      rw [(pubkey_frame h1.fs w2.umask w2.x25519 hw2.curve (h1.dirs p) d p (w2.init (join d "wgsk")) w2.mkdir (w2.reads (join d "wgsk")) w2.w1 w2.w2).2 (by rw [hm]; exact Option.some_ne_none _)] at r2
      cases r2
  refine ⟨?_, a2 _ _ _ own1 hw1.wgsk ?_⟩
  · obtain ⟨f1, x1, y1⟩ := own1.wgsk
    obtain ⟨f2, x2, y2⟩ := own1.pqsk
    obtain ⟨f3, x3, y3⟩ := own1.pqpk
    exact ⟨⟨f1, kept _ _ x1, y1⟩, ⟨f2, kept _ _ x2, y2⟩, ⟨f3, kept _ _ x3, y3⟩⟩
  · intro e
    obtain ⟨f3, x3, -⟩ := own1.pqpk
    exact hh1 p _ f3 hp (e ▸ x3) hpn

/-- the pre-shared key in a directory of public keys: none, or this one -/
def Psk (fs : Fs) (d : String) : Option Bytes → Prop
  | none => fs (join d "psk") = none
  | some k => k.length = 32 ∧ ∃ f, fs (join d "psk") = some f ∧ f.content = b64Enc k

/-- peer number `i` of the daemon `a`, which `rp` started with options `o`: its keys go, through `wg set`, to the WireGuard peer `wgpk` on the device of `o` -/
def KeysGoTo (w : World) (o : RpExchange.Options) (a : App) (i : Nat) (p : RpExchange.Peer) (wgpk : Bytes) : Prop :=
  ∃ ap, a.peers[i]? = some ap ∧ ap.outfile = none ∧
    ap.broker = some (0, w.env.cfg ⟨txt (devName o), wgpk, NativeUnix.encodeParams ((RpExchange.wgWords w.env.display p).map txt)⟩)

theorem all2_get {α β : Type} {P : α → β → Prop} {l : List α} {m : List β} (h : Startup.All2 P l m) : ∀ (i : Nat) x, l[i]? = some x → ∃ y, m[i]? = some y ∧ P x y := by
  induction h with
  | nil => intro i x h; cases i <;> cases h
  | cons hp _ ih =>
    intro i x h
    cases i with
    | zero => cases h; exact ⟨_, rfl, hp⟩
    | succ i => exact ih i x h

/-- one side of the setup -/
theorem side (L : C.Lawful) {w : World} (hw : w.WF) {h : Host} {o : RpExchange.Options} {a : App} {socks : List Startup.Sock} (hs : (start C w h o).done = .serving a socks)
    {wgsk pqsk pqpk : Bytes} (ho : OwnDir h.fs o.dir wgsk pqsk pqpk) (hl : wgsk.length = 32)
    {i : Nat} {p : RpExchange.Peer} (hi : o.peers[i]? = some p) {wgpk pk : Bytes} (hp : PubDir h.fs p.dir wgpk pk) (hl' : wgpk.length = 32) {psk : Option Bytes} (hk : Psk h.fs p.dir psk) :
    (start C w h o).effs = plan wgsk o ∧ KeysGoTo w o a i p wgpk ∧ ∃ s e, a.site = .product s ∧ Reachable C s ∧ s.sskm = pqsk ∧ s.spkm = pqpk ∧
      s.peers[i]? = some e ∧ e.spkt = pk ∧ e.psk = psk.getD zero32 ∧ e.version = p.version ∧ e.osk = .wireguardPsk := by
  obtain ⟨h1, R⟩ := start_serves L hw hs ho hl
  obtain ⟨xs, x1, x2, x3⟩ := R.peers
  obtain ⟨s, k1, k2, k3⟩ := R.keys
  obtain ⟨x, hx, G⟩ := all2_get x1 i p hi
  obtain ⟨ap, g1, g2, g3⟩ := x2.peers i x hx
  obtain ⟨e, g4, g5, g6, g7, g8⟩ := (x2.product s k1).2 i x hx
  refine ⟨h1, ⟨ap, g1, g2.trans G.out, ?_⟩, s, e, k1, R.sane.1 s k1, k2, k3, g4, ?_, ?_, g7.trans G.version, g8.trans G.osk⟩
  · obtain ⟨t, id, b1, b2, b3⟩ := G.broker
    obtain ⟨f, c1, c2⟩ := hp.wgpk
    obtain ⟨f', d1, d2⟩ := text_bytes b1
    rw [c1] at d1; cases d1
    rw [d2, c2] at b2
    rw [id_of_key hl' b2] at b3
    exact g3.trans b3
  · obtain ⟨f, c1, c2⟩ := hp.pqpk
    obtain ⟨f', d1, d2⟩ := disk_key G.pk
    rw [c1] at d1; cases d1
    rw [g5, d2, c2]
  · rw [g6]
    cases psk with
    | none => rw [G.noPsk (by show (h.fs (join p.dir "psk")).isSome = false; rw [show h.fs (join p.dir "psk") = none from hk]; rfl)]
    | some k =>
      obtain ⟨hkl, f, c1, c2⟩ := hk
      obtain ⟨k', d1, d2⟩ := G.psk (by show (h.fs (join p.dir "psk")).isSome = true; rw [c1]; rfl)
      rw [d2, load_key c1 c2 (by rw [hkl, hw.init]) (got_some d1)]

/-- **C120.** Two hosts on which `rp` serves, each with its own keys and, for the other, a directory with the other's public keys (as made by `genkey` and `pubkey`,
`rp_keys_prepared`, and copied) and the same pre-shared key or none: the two daemons are registered with each other for a common key (so that C97 and C112 apply), and each
hands the keys to the WireGuard peer that is the other's device. -/
theorem rp_hosts_linked (L : C.Lawful) {wA wB : World} (hwA : wA.WF) (hwB : wB.WF) {argsA argsB : List String} {hA hB : Host} {oA oB : RpExchange.Options}
    (tA : Told wA argsA hA oA) (tB : Told wB argsB hB oB) {a b : App} {sa sb : List Startup.Sock}
    (servesA : (run C wA argsA hA).done = .serving a sa) (servesB : (run C wB argsB hB).done = .serving b sb)
    -- the keys
    {wgskA pqskA pqpkA wgskB pqskB pqpkB : Bytes} (lA : wgskA.length = 32) (lB : wgskB.length = 32) (pairA : C.StaticPair pqskA pqpkA) (pairB : C.StaticPair pqskB pqpkB)
    {x25519 : Bytes → Bytes} (curve : ∀ k, (x25519 k).length = 32)
    -- the directories
    (ownA : OwnDir hA.fs oA.dir wgskA pqskA pqpkA) (ownB : OwnDir hB.fs oB.dir wgskB pqskB pqpkB)
    {i j : Nat} {pB pA : RpExchange.Peer} (hi : oA.peers[i]? = some pB) (hj : oB.peers[j]? = some pA) (version : pA.version = pB.version)
    (pubB : PubDir hA.fs pB.dir (x25519 wgskB) pqpkB) (pubA : PubDir hB.fs pA.dir (x25519 wgskA) pqpkA)
    {psk : Option Bytes} (pskA : Psk hA.fs pB.dir psk) (pskB : Psk hB.fs pA.dir psk) :
    (∃ sA sB eb ea, a.site = .product sA ∧ b.site = .product sB ∧ Mutual C sA sB i j eb ea) ∧
    KeysGoTo wA oA a i pB (x25519 wgskB) ∧ KeysGoTo wB oB b j pA (x25519 wgskA) ∧
    (∃ port, .configure (devName oA) wgskA port ∈ (run C wA argsA hA).effs) ∧ (∃ port, .configure (devName oB) wgskB port ∈ (run C wB argsB hB).effs) := by
  rw [run_told tA] at servesA ⊢
  rw [run_told tB] at servesB ⊢
  obtain ⟨u1, u2, sA, eb, u3, u4, u5, u6, u7, u8, u9, u10, u11⟩ := side L hwA servesA ownA lA hi pubB (curve _) pskA
  obtain ⟨v1, v2, sB, ea, v3, v4, v5, v6, v7, v8, v9, v10, v11⟩ := side L hwB servesB ownB lB hj pubA (curve _) pskB
  refine ⟨⟨sA, sB, eb, ea, u3, v3, u4, v4, ?_, ?_, u7, v7, ?_, ?_, v9.trans u9.symm, ?_, v11.trans u11.symm⟩, u2, v2, ?_, ?_⟩
  · rw [u5, u6]; exact pairA
  · rw [v5, v6]; exact pairB
  · rw [u8, v6]
  · rw [v8, u6]
  · rw [v10, u10, version]
  · exact ⟨_, by rw [u1]; unfold plan; simp; exact .inl rfl⟩
  · exact ⟨_, by rw [v1]; unfold plan; simp; exact .inl rfl⟩

end Verif.RpMain
