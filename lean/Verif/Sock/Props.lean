import Verif.Sock.Model

/-!
# C54: opening sockets

For every build, all flags, addresses and descriptor tables, and every combination of answers of the kernel.
-/

namespace Kasync.Sock

/-! ## Specification -/

/-- Descriptor `n` was closed and is now socket `s`; all other descriptors are as before. -/
def Opened (w w' : World) (n : Nat) (s : Sock) : Prop :=
  w.fds n = none ∧ w'.fds n = some s ∧ ∀ m, m ≠ n → w'.fds m = w.fds m

/-- The options set on `s` are exactly those of `asked` (with their values) that the kernel accepted. -/
def HasOpts (e : Env) (s : Sock) (asked : Opt → Int → Prop) : Prop := ∀ o v, (o, v) ∈ s.opts ↔ e.opt o = true ∧ asked o v

/-- What `ksocket_listen` is to set (flags of include/ksocket.h). -/
def ListenOpt (b : Build) (flag : UInt32) (o : Opt) (v : Int) : Prop :=
  v = 1 ∧ match o with
  | .reuseaddr => True
  | .reuseport => flag &&& 8 ≠ 0
  | .v6only => flag &&& 4 ≠ 0
  | .fastopen => flag &&& 32 ≠ 0
  | .transparent => b.tproxy = true ∧ flag &&& 16 ≠ 0
  | _ => False

/-- What `ksocket_new_udp` is to set, and `kudp_new2` (with `pkt`). -/
def UdpOpt (pkt : Bool) (flag : UInt32) (o : Opt) (v : Int) : Prop :=
  v = 1 ∧ match o with
  | .reuseport => flag &&& 8 ≠ 0
  | .v6only => flag &&& 4 ≠ 0
  | .pktinfo => pkt = true ∧ flag &&& 256 ≠ 0
  | _ => False

/-- What `ksocket_half_connect` is to set. -/
def HalfOpt (b : Build) (bindA : Option Addr) (mask : Int) (o : Opt) (v : Int) : Prop :=
  b.tproxy = true ∧ bindA.isSome = true ∧ 0 < mask ∧ (o = .transparent ∧ v = 1 ∨ o = .mark ∧ v = mask)

/-- The socket blocks unless it was asked not to (without SOCK_NONBLOCK this needs an `ioctl` that can fail). -/
def Blocking (b : Build) (e : Env) (s : Sock) (wantNonblock : Prop) : Prop :=
  s.nonblock = true ↔ wantNonblock ∧ (b.cloexec = true ∨ e.nb = true)

/-- The address a socket gets when it is bound to `a`: port 0 is replaced by a port of the kernel. -/
def BoundTo (e : Env) (a a' : Addr) : Prop :=
  a'.fam = a.fam ∧ a'.host = a.host ∧ (a.fam = .unix ∨ a.port ≠ 0 → a' = a) ∧ (a.fam ≠ .unix → a.port = 0 → a'.port = e.port + 1)

/-- The path can be bound: nothing is there, or a socket that can be removed. -/
def PathFree (e : Env) (w : World) (a : Addr) : Prop :=
  a.fam = .unix → w.nodes a.host = .absent ∨ (∃ i, w.nodes a.host = .sock i) ∧ e.stat = true ∧ e.unlink = true

/-- Nothing changed except perhaps the file at the path of `a`, which was no regular file. -/
def PathsKept (w w' : World) (a : Addr) : Prop :=
  ∀ p, w'.nodes p = w.nodes p ∨ a.fam = .unix ∧ p = a.host ∧ w.nodes p ≠ .file

/-! ## Lemmas -/

theorem bit_iff (f b : UInt32) : bit f b = true ↔ f &&& b ≠ 0 := by unfold bit; simp

theorem block_iff (flag : UInt32) : bit flag BLOCK = false ↔ flag &&& 64 = 0 := by unfold bit BLOCK; simp

theorem bit_or (f b : UInt32) (h : b ≠ 0) : bit (f ||| b) b = true := by
  rw [bit_iff]
  intro hh
  apply h
  have : (f ||| b) &&& b = b := by
    apply UInt32.toBitVec_inj.mp
    simp only [UInt32.toBitVec_and, UInt32.toBitVec_or]
    ext i hi; simp; intro h1 ; simp [h1]
  rw [this] at hh; exact hh

theorem bit_or_other (f b c : UInt32) (h : c &&& b = 0) : bit (f ||| c) b = bit f b := by
  unfold bit
  have : (f ||| c) &&& b = f &&& b := by
    apply UInt32.toBitVec_inj.mp
    have h' := congrArg UInt32.toBitVec h
    simp only [UInt32.toBitVec_and, UInt32.toBitVec_or] at h' ⊢
    ext i hi
    have := congrArg (fun v => v.getLsbD i) h'
    simp at this ⊢
    grind
  rw [this]

theorem newFd_none {e : Env} {w : World} {n : Nat} (h : newFd e w = some n) : w.fds n = none := by
  unfold newFd at h
  split at h
  · rename_i m hm
    split at h
    · simp at h
    · rename_i hh; simp only [Option.some.injEq] at h; subst h; cases hx : w.fds m <;> simp_all
  · simp at h

theorem newFd_congr {e : Env} {w w' : World} (h : w'.fds = w.fds) : newFd e w' = newFd e w := by unfold newFd; rw [h]

theorem setopt_opts (e : Env) (o : Opt) (v : Int) (s : Sock) (p : Opt) (x : Int) :
    (p, x) ∈ (setopt e o v s).opts ↔ (p, x) ∈ s.opts ∨ e.opt p = true ∧ p = o ∧ x = v := by
  unfold setopt
  split
  · simp; grind
  · grind

theorem setoptIf_opts (c : Bool) (e : Env) (o : Opt) (v : Int) (s : Sock) (p : Opt) (x : Int) :
    (p, x) ∈ (setoptIf c e o v s).opts ↔ (p, x) ∈ s.opts ∨ e.opt p = true ∧ c = true ∧ p = o ∧ x = v := by
  unfold setoptIf
  split
  · rw [setopt_opts]; grind
  · grind

/-- Setting an option changes only the options. -/
theorem setopt_eq (e : Env) (o : Opt) (v : Int) (s : Sock) : setopt e o v s = { s with opts := (setopt e o v s).opts } := by unfold setopt; split <;> rfl
theorem setoptIf_eq (c : Bool) (e : Env) (o : Opt) (v : Int) (s : Sock) : setoptIf c e o v s = { s with opts := (setoptIf c e o v s).opts } := by
  unfold setoptIf; split
  · exact setopt_eq e o v s
  · rfl

theorem listenOpts_eq (b : Build) (e : Env) (flag : UInt32) (s : Sock) : listenOpts b e flag s = { s with opts := (listenOpts b e flag s).opts } := by
  unfold listenOpts
  simp only
  rw [setoptIf_eq, setoptIf_eq (bit flag FASTOPEN), setoptIf_eq (bit flag ONLY_IPV6), setoptIf_eq (bit flag REUSEPORT), setopt_eq]

theorem listenOpts_has (b : Build) (e : Env) (flag : UInt32) (s : Sock) (h : s.opts = []) : HasOpts e (listenOpts b e flag s) (ListenOpt b flag) := by
  intro o v
  unfold listenOpts ListenOpt
  simp only [setoptIf_opts, setopt_opts, h, Bool.and_eq_true, bit_iff, REUSEPORT, ONLY_IPV6, FASTOPEN, TPROXY]
  cases o <;> simp <;> grind

/-- The socket a non-UDP function starts from. -/
theorem fresh_fields (b : Build) (w : World) (fam : Fam) (d nb : Bool) :
    fresh b w fam d nb = { id := w.next, fam := fam, dgram := d, cloexec := b.cloexec, nonblock := b.cloexec && nb } := by
  unfold fresh closeOnExec; cases b.cloexec <;> simp

theorem start_fields (b : Build) (e : Env) (w : World) (fam : Fam) (d nb : Bool) :
    (if !b.cloexec && nb then noBlock e (fresh b w fam d nb) else fresh b w fam d nb) =
    { id := w.next, fam := fam, dgram := d, cloexec := b.cloexec, nonblock := nb && (b.cloexec || e.nb) } := by
  rw [fresh_fields]; unfold noBlock; cases b.cloexec <;> cases nb <;> cases e.nb <;> simp

theorem put_fds (w : World) (n : Nat) (s : Option Sock) (m : Nat) : (w.put n s).fds m = if m = n then s else w.fds m := rfl

theorem put_none_eq {w : World} {n : Nat} (h : w.fds n = none) : (w.put n none).fds = w.fds := by
  funext m; rw [put_fds]; split
  · rename_i hm; rw [hm, h]
  · rfl

theorem clearPath_fds (e : Env) (w : World) (a : Addr) : (clearPath e w a).fds = w.fds := by
  unfold clearPath; split
  · split
    · split <;> rfl
    · rfl
  · rfl

theorem clearPath_next (e : Env) (w : World) (a : Addr) : (clearPath e w a).next = w.next := by
  unfold clearPath; split
  · split
    · split <;> rfl
    · rfl
  · rfl

theorem bindNode_fds (w : World) (a : Addr) (i : Nat) : (bindNode w a i).fds = w.fds := by unfold bindNode; split <;> rfl
theorem bindNode_next (w : World) (a : Addr) (i : Nat) : (bindNode w a i).next = w.next := by unfold bindNode; split <;> rfl
theorem bindNodeOpt_fds (w : World) (a : Option Addr) (i : Nat) : (bindNodeOpt w a i).fds = w.fds := by
  unfold bindNodeOpt; split
  · rfl
  · exact bindNode_fds _ _ _

theorem bindTo_spec {e : Env} {w : World} {a a' : Addr} (h : bindTo e w a = some a') : BoundTo e a a' ∧ e.bind = true ∧ (a.fam = .unix → w.nodes a.host = .absent) := by
  unfold bindTo at h
  split at h
  · simp at h
  · rename_i hb
    simp only [Bool.not_eq_true, Bool.not_eq_false'] at hb
    split at h
    · rename_i hf
      split at h
      · rename_i hn
        simp only [Option.some.injEq] at h; subst h
        exact ⟨⟨rfl, rfl, fun _ => rfl, fun h => absurd hf h⟩, hb, fun _ => hn⟩
      · simp at h
    · rename_i hf
      simp only [Option.some.injEq] at h
      refine ⟨?_, hb, fun h => absurd h hf⟩
      unfold BoundTo
      by_cases hp : a.port = 0
      · rw [if_pos hp] at h; subst h; simp [hp]; intro hu; exact (hf hu).elim
      · rw [if_neg hp] at h; subst h; simp [hp]

theorem bindTo_none {e : Env} {w : World} {a : Addr} : bindTo e w a = none ↔ e.bind = false ∨ a.fam = .unix ∧ w.nodes a.host ≠ .absent := by
  unfold bindTo
  cases hb : e.bind with
  | false => simp
  | true =>
    simp
    cases hf : a.fam <;> simp

/-! ## Listening -/

/-- The socket `ksocket_listen` binds. -/
def listenSock (b : Build) (e : Env) (w : World) (a : Addr) (flag : UInt32) : Sock :=
  listenOpts b e flag { id := w.next, fam := a.fam, dgram := false, cloexec := b.cloexec, nonblock := !bit flag BLOCK && (b.cloexec || e.nb) }

theorem listen_unfold (b : Build) (e : Env) (w : World) (a : Addr) (flag : UInt32) :
    listen b e w a flag =
      match newFd e w with
      | none => (clearPath e w a, none)
      | some n =>
        match bindTo e { clearPath e w a with next := w.next + 1 } a with
        | none => (({ clearPath e w a with next := w.next + 1 } : World).put n none, none)
        | some a' =>
          if e.listen then ((bindNode { clearPath e w a with next := w.next + 1 } a w.next).put n (some { listenSock b e w a flag with bound := some a', listening := true }), some n)
          else ((bindNode { clearPath e w a with next := w.next + 1 } a w.next).put n none, none) := by
  unfold listen
  simp only [newFd_congr (clearPath_fds e w a)]
  cases newFd e w with
  | none => rfl
  | some n =>
    simp only [start_fields, clearPath_next]
    unfold listenSock
    have hid : (listenOpts b e flag { id := w.next, fam := a.fam, dgram := false, cloexec := b.cloexec, nonblock := !bit flag BLOCK && (b.cloexec || e.nb) }).id = w.next := by
      rw [listenOpts_eq]
    simp only [hid]
    rfl

/-- **C54.** A `ksocket_listen` that fails leaves every descriptor as it was: nothing is leaked, nothing else is closed. -/
theorem listen_failed {b : Build} {e : Env} {w : World} {a : Addr} {flag : UInt32} (h : (listen b e w a flag).2 = none) :
    (listen b e w a flag).1.fds = w.fds := by
  rw [listen_unfold] at h ⊢
  cases hn : newFd e w with
  | none => simp only [hn] at h ⊢; exact clearPath_fds _ _ _
  | some n =>
    have h0 := newFd_none hn
    simp only [hn] at h ⊢
    cases hb : bindTo e { clearPath e w a with next := w.next + 1 } a with
    | none =>
      simp only
      rw [put_none_eq (by simp only [clearPath_fds]; exact h0)]
      exact clearPath_fds _ _ _
    | some a' =>
      simp only [hb] at h ⊢
      cases hl : e.listen with
      | true => simp [hl] at h
      | false =>
        simp only [Bool.false_eq_true, if_false]
        rw [put_none_eq (by rw [bindNode_fds]; simp only [clearPath_fds]; exact h0), bindNode_fds]
        exact clearPath_fds _ _ _

/-- **C54.** A `ksocket_listen` that succeeds has opened exactly one descriptor: a listening stream socket of the family asked for, bound to the
address asked for, closed on exec where the system can do that at creation, blocking as the flags say, with exactly the options the flags ask for (that the kernel accepted). -/
theorem listen_exact {b : Build} {e : Env} {w : World} {a : Addr} {flag : UInt32} {n : Nat} (h : (listen b e w a flag).2 = some n) :
    ∃ s, Opened w (listen b e w a flag).1 n s ∧ s.fam = a.fam ∧ s.dgram = false ∧ s.listening = true ∧ s.peer = .none ∧
      s.cloexec = b.cloexec ∧ Blocking b e s (flag &&& 64 = 0) ∧ HasOpts e s (ListenOpt b flag) ∧
      (∃ a', s.bound = some a' ∧ BoundTo e a a') ∧ s.id = w.next ∧ (listen b e w a flag).1.next = w.next + 1 := by
  rw [listen_unfold] at h ⊢
  cases hn : newFd e w with
  | none => simp [hn] at h
  | some m =>
    have h0 := newFd_none hn
    simp only [hn] at h ⊢
    cases hb : bindTo e { clearPath e w a with next := w.next + 1 } a with
    | none => simp [hb] at h
    | some a' =>
      simp only [hb] at h ⊢
      cases hl : e.listen with
      | false => simp [hl] at h
      | true =>
        simp only [hl, if_true, Option.some.injEq] at h ⊢
        subst h
        have hopts := listenOpts_has b e flag { id := w.next, fam := a.fam, dgram := false, cloexec := b.cloexec, nonblock := !bit flag BLOCK && (b.cloexec || e.nb) } rfl
        have heq := listenOpts_eq b e flag { id := w.next, fam := a.fam, dgram := false, cloexec := b.cloexec, nonblock := !bit flag BLOCK && (b.cloexec || e.nb) }
        have hbit := block_iff flag
        refine ⟨_, ⟨h0, by rw [put_fds, if_pos rfl], ?_⟩, ?_⟩
        · intro k hk; rw [put_fds, if_neg hk, bindNode_fds]; simp only [clearPath_fds]
        · unfold listenSock at *
          refine ⟨by rw [heq], by rw [heq], rfl, by rw [heq], by rw [heq], ?_, hopts, ⟨a', rfl, (bindTo_spec hb).1⟩, by rw [heq], ?_⟩
          · unfold Blocking
            simp only
            rw [heq]
            rw [← hbit]
            cases bit flag BLOCK <;> cases b.cloexec <;> cases e.nb <;> simp
          · show (bindNode _ _ _).next = _; rw [bindNode_next]

/-- **C54.** `ksocket_listen` succeeds exactly if a descriptor is free, `bind` and `listen` succeed and, for a path, nothing is there but perhaps a socket
that can be removed. -/
theorem listen_iff (b : Build) (e : Env) (w : World) (a : Addr) (flag : UInt32) :
    (listen b e w a flag).2.isSome = true ↔ (newFd e w).isSome = true ∧ e.bind = true ∧ e.listen = true ∧ PathFree e w a := by
  rw [listen_unfold]
  cases hn : newFd e w with
  | none => simp
  | some n =>
    simp only
    have hpath : (a.fam = .unix → (clearPath e w a).nodes a.host = .absent) ↔ PathFree e w a := by
      unfold PathFree
      constructor
      · intro h hu
        have := h hu
        unfold clearPath at this
        rw [if_pos hu] at this
        cases hx : w.nodes a.host with
        | absent => left; rfl
        | file => simp [hx] at this
        | sock i =>
          right
          rw [hx] at this
          simp only at this
          split at this
          · rename_i hh; simp only [Bool.and_eq_true] at hh; exact ⟨⟨i, rfl⟩, hh⟩
          · rw [hx] at this; simp at this
      · intro h hu
        rcases h hu with h | ⟨⟨i, h⟩, h1, h2⟩
        · unfold clearPath; rw [if_pos hu, h]; exact h
        · unfold clearPath; rw [if_pos hu, h]; simp [h1, h2, World.node]
    cases hb : bindTo e { clearPath e w a with next := w.next + 1 } a with
    | none =>
      rw [bindTo_none] at hb
      simp only [Option.isSome_none, Bool.false_eq_true, Option.isSome_some, true_and, false_iff]
      rintro ⟨h1, _, h3⟩
      rcases hb with hb | ⟨hu, hb⟩
      · rw [hb] at h1; simp at h1
      · exact hb (hpath.mpr h3 hu)
    | some a' =>
      obtain ⟨_, h1, h2⟩ := bindTo_spec hb
      have h3 := hpath.mp h2
      simp only [Option.isSome_some, true_and, h1]
      cases e.listen <;> simp [h3]

/-- **C54.** `ksocket_listen` touches no file but a socket at its own path, and never a file that is not a socket. -/
theorem listen_paths (b : Build) (e : Env) (w : World) (a : Addr) (flag : UInt32) : PathsKept w (listen b e w a flag).1 a := by
  have hc : PathsKept w (clearPath e w a) a := by
    intro p
    unfold clearPath
    split
    · rename_i hu
      split
      · rename_i i hi
        split
        · by_cases hp : p = a.host
          · right; refine ⟨hu, hp, ?_⟩; rw [hp, hi]; simp
          · left; simp [World.node, hp]
        · exact Or.inl rfl
      · exact Or.inl rfl
    · exact Or.inl rfl
  have hbn : ∀ (a' : Addr) (w' : World), w'.nodes = (clearPath e w a).nodes → bindTo e w' a = some a' → PathsKept w (bindNode w' a w.next) a := by
    intro a' w' hw hb p
    obtain ⟨_, _, h2⟩ := bindTo_spec hb
    unfold bindNode
    split
    · rename_i hu
      by_cases hp : p = a.host
      · right
        refine ⟨hu, hp, ?_⟩
        intro hf
        have h3 := h2 hu
        rw [hw] at h3
        unfold clearPath at h3
        rw [if_pos hu, ← hp, hf] at h3
        simp only at h3
        rw [hf] at h3; simp at h3
      · have := hc p
        rw [← hw] at this
        rcases this with h | h
        · left; simp [World.node, hp, h]
        · exact Or.inr h
    · have := hc p; rw [← hw] at this; exact this
  rw [listen_unfold]
  cases hn : newFd e w with
  | none => exact hc
  | some n =>
    simp only
    cases hb : bindTo e { clearPath e w a with next := w.next + 1 } a with
    | none => exact hc
    | some a' =>
      have := hbn a' { clearPath e w a with next := w.next + 1 } rfl hb
      simp only
      cases e.listen <;> exact this

/-! ## UDP sockets -/

/-- **C54.** `ksocket_new_udp` opens exactly one descriptor, as the flags say, or none at all; it fails only if `socket` does. -/
theorem newUdp_exact (b : Build) (e : Env) (w : World) (fam : Fam) (flag : UInt32) :
    ((newUdp b e w fam flag).2 = none ∧ newFd e w = none ∧ (newUdp b e w fam flag).1 = w) ∨
    ∃ n s, (newUdp b e w fam flag).2 = some n ∧ Opened w (newUdp b e w fam flag).1 n s ∧ s.fam = fam ∧ s.dgram = true ∧ s.cloexec = b.cloexec ∧
      Blocking b e s (flag &&& 64 = 0) ∧ HasOpts e s (UdpOpt false flag) ∧ s.bound = none ∧ s.listening = false ∧ s.peer = .none ∧ (newUdp b e w fam flag).1.nodes = w.nodes := by
  unfold newUdp
  cases hn : newFd e w with
  | none => left; exact ⟨rfl, rfl, rfl⟩
  | some n =>
    right
    simp only [start_fields]
    have hbit := block_iff flag
    refine ⟨n, _, rfl, ⟨newFd_none hn, by show (w.put n _).fds n = _; rw [put_fds, if_pos rfl], ?_⟩, ?_⟩
    · intro m hm; show (w.put n _).fds m = _; rw [put_fds, if_neg hm]
    · refine ⟨?_, ?_, ?_, ?_, ?_, ?_, ?_, ?_, rfl⟩
      all_goals try (rw [setoptIf_eq, setoptIf_eq (bit flag REUSEPORT)])
      · unfold Blocking
        simp only
        rw [← hbit]
        cases bit flag BLOCK <;> cases b.cloexec <;> cases e.nb <;> simp
      · intro o v
        show (o, v) ∈ (setoptIf _ _ _ _ _).opts ↔ _
        unfold UdpOpt
        rw [setoptIf_opts]
        show (o, v) ∈ (setoptIf _ _ _ _ _).opts ∨ _ ↔ _
        rw [setoptIf_opts]
        simp only [bit_iff, REUSEPORT, ONLY_IPV6]
        cases o <;> simp <;> grind

/-- **C54.** `kudp_new2` gives a connection with one new datagram socket (IPv6 exactly if the flag says so) and the room for packet information
exactly if that is asked for; otherwise NULL and nothing is left open.  Destroying the connection closes the socket and nothing else. -/
theorem udpNew_exact (b : Build) (e : Env) (w : World) (flag : UInt32) :
    ((udpNew b e w flag).2 = none ∧ newFd e w = none ∧ (udpNew b e w flag).1 = w) ∨
    ∃ c n s, (udpNew b e w flag).2 = some c ∧ c.fd = some n ∧ Opened w (udpNew b e w flag).1 n s ∧ s.dgram = true ∧
      s.fam = (if flag &&& 4 = 0 then .inet else .inet6) ∧ (c.ext = true ↔ flag &&& 256 ≠ 0) ∧ HasOpts e s (UdpOpt true flag) ∧
      Blocking b e s (flag &&& 64 = 0) ∧ (connDestroy (udpNew b e w flag).1 c).fds = w.fds := by
  unfold udpNew
  have hfam : (if bit flag ONLY_IPV6 = true then Fam.inet6 else Fam.inet) = (if flag &&& 4 = 0 then Fam.inet else Fam.inet6) := by
    have := bit_iff flag ONLY_IPV6
    unfold ONLY_IPV6 at this ⊢
    by_cases h : flag &&& 4 = 0 <;> simp_all
  simp only [hfam]
  rcases newUdp_exact b e w (if flag &&& 4 = 0 then .inet else .inet6) flag with ⟨h1, h2, h3⟩ | ⟨n, s, h1, ⟨h2, h3, h4⟩, h5, h6, h7, h8, h9, _⟩
  · left; simp only [h1]; exact ⟨trivial, h2, h3⟩
  · right
    simp only [h1, h3]
    refine ⟨_, n, _, rfl, rfl, ⟨h2, by rw [put_fds, if_pos rfl], ?_⟩, ?_, ?_, ?_, ?_, ?_, ?_⟩
    · intro m hm; rw [put_fds, if_neg hm]; exact h4 m hm
    · rw [setoptIf_eq]; exact h6
    · rw [setoptIf_eq]; exact h5
    · exact bit_iff _ _
    · intro o v
      rw [setoptIf_opts, h9 o v]
      unfold UdpOpt
      rw [bit_iff]
      simp only [IP_PKTINFO]
      cases o <;> simp <;> grind
    · rw [setoptIf_eq]; exact h8
    · funext m
      simp only [connDestroy, put_fds]
      split
      · rename_i hm; rw [hm, h2]
      · rename_i hm; exact h4 m hm

/-! ## Accepting -/

/-- **C54.** `ksocket_accept` opens exactly one descriptor, blocking as asked, or nothing. -/
theorem accept_exact (b : Build) (e : Env) (w : World) (l : Sock) (nb : Bool) :
    ((accept b e w l nb).2 = none ∧ newFd e w = none ∧ (accept b e w l nb).1 = w) ∨
    ∃ n s, (accept b e w l nb).2 = some n ∧ Opened w (accept b e w l nb).1 n s ∧ s.fam = l.fam ∧ s.dgram = false ∧ s.cloexec = b.cloexec ∧
      Blocking b e s (nb = true) ∧ s.peer = .connected e.from_ ∧ s.bound = l.bound ∧ s.listening = false ∧ s.opts = [] ∧ (accept b e w l nb).1.nodes = w.nodes := by
  unfold accept
  cases hn : newFd e w with
  | none => left; exact ⟨rfl, rfl, rfl⟩
  | some n =>
    right
    refine ⟨n, _, rfl, ⟨newFd_none hn, by show (w.put n _).fds n = _; rw [put_fds, if_pos rfl], ?_⟩, ?_⟩
    · intro m hm; show (w.put n _).fds m = _; rw [put_fds, if_neg hm]
    · unfold Blocking noBlock
      rw [fresh_fields]
      cases b.cloexec <;> cases nb <;> cases e.nb <;> simp [World.put]

/-! ## Connecting -/

theorem bindOpt_spec {e : Env} {w : World} {a : Option Addr} {bd : Option Addr} (h : bindOpt e w a = some bd) :
    (a = none ∧ bd = none) ∨ ∃ x y, a = some x ∧ bd = some y ∧ BoundTo e x y := by
  unfold bindOpt at h
  split at h
  · simp only [Option.some.injEq] at h; exact Or.inl ⟨rfl, h.symm⟩
  · rename_i x
    rw [Option.map_eq_some_iff] at h
    obtain ⟨y, hy, e2⟩ := h
    exact Or.inr ⟨x, y, rfl, e2.symm, (bindTo_spec hy).1⟩

/-- The socket is bound to the address asked for, if any. -/
def BoundOpt (e : Env) (asked : Option Addr) (got : Option Addr) : Prop :=
  match asked with
  | none => got = none
  | some x => ∃ y, got = some y ∧ BoundTo e x y

/-- **C54.** `ksocket_connect` gives a connected, blocking stream socket bound as asked, or fails and leaves every descriptor as it was; it is undefined
only for timeouts above 2147483 seconds. -/
theorem connect_exact (b : Build) (e : Env) (w : World) (a : Addr) (bindA : Option Addr) (tmo : Int) (ht : tmo ≤ 2147483) :
    ∃ w' r, connect b e w a bindA tmo = .ok (w', r) ∧
      ((r = none ∧ w'.fds = w.fds) ∨
       ∃ n s, r = some n ∧ Opened w w' n s ∧ s.fam = a.fam ∧ s.dgram = false ∧ s.cloexec = b.cloexec ∧ s.nonblock = false ∧ s.peer = .connected a ∧
        s.opts = [] ∧ BoundOpt e bindA s.bound ∧ e.conn = .ok ∧ (0 < tmo → e.poll = true)) := by
  unfold connect
  cases hn : newFd e w with
  | none => exact ⟨w, none, rfl, Or.inl ⟨rfl, rfl⟩⟩
  | some n =>
    have h0 := newFd_none hn
    simp only
    cases hb : bindOpt e { w with next := w.next + 1 } bindA with
    | none => exact ⟨_, none, rfl, Or.inl ⟨rfl, put_none_eq h0⟩⟩
    | some bd =>
      simp only
      have hfail : ((bindNodeOpt { w with next := w.next + 1 } bindA (fresh b w a.fam false false).id).put n none).fds = w.fds := by
        rw [put_none_eq (by rw [bindNodeOpt_fds]; exact h0), bindNodeOpt_fds]
      cases hc : e.conn with
      | inprogress => exact ⟨_, none, rfl, Or.inl ⟨rfl, hfail⟩⟩
      | fail => exact ⟨_, none, rfl, Or.inl ⟨rfl, hfail⟩⟩
      | ok =>
        simp only
        have hw : waitEvent e tmo = .ok (decide (tmo ≤ 0) || e.poll) := by
          unfold waitEvent
          by_cases h : tmo ≤ 0
          · simp [h]
          · rw [if_neg h, if_neg (by omega)]; simp [h]
        rw [hw]
        cases hp : (decide (tmo ≤ 0) || e.poll) with
        | false => exact ⟨_, none, rfl, Or.inl ⟨rfl, hfail⟩⟩
        | true =>
          refine ⟨_, some n, rfl, Or.inr ⟨n, _, rfl, ⟨h0, by rw [put_fds, if_pos rfl], ?_⟩, ?_⟩⟩
          · intro m hm; rw [put_fds, if_neg hm, bindNodeOpt_fds]
          · rw [fresh_fields]
            refine ⟨rfl, rfl, rfl, by simp, rfl, rfl, ?_, trivial, ?_⟩
            · rcases bindOpt_spec hb with ⟨h1, h2⟩ | ⟨x, y, h1, h2, h3⟩
              · rw [h1]; exact h2
              · rw [h1]; exact ⟨y, h2, h3⟩
            · intro h
              cases hq : e.poll with
              | true => rfl
              | false => rw [hq] at hp; simp at hp; omega

/-- **C54.** `ksocket_half_connect` gives a non-blocking stream socket on its way to (or at) the address, bound as asked, marked for transparent proxying exactly
if a source address and a positive mask are given, or fails and leaves every descriptor as it was. -/
theorem half_exact (b : Build) (e : Env) (w : World) (a : Addr) (bindA : Option Addr) (mask : Int) :
    ((halfConnect b e w a bindA mask).2 = none ∧ (halfConnect b e w a bindA mask).1.fds = w.fds) ∨
    ∃ n s, (halfConnect b e w a bindA mask).2 = some n ∧ Opened w (halfConnect b e w a bindA mask).1 n s ∧ s.fam = a.fam ∧ s.dgram = false ∧
      s.cloexec = b.cloexec ∧ Blocking b e s True ∧ HasOpts e s (HalfOpt b bindA mask) ∧ BoundOpt e bindA s.bound ∧
      (e.conn = .ok ∧ s.peer = .connected a ∨ e.conn = .inprogress ∧ s.peer = .connecting a) := by
  unfold halfConnect
  cases hn : newFd e w with
  | none => exact Or.inl ⟨rfl, rfl⟩
  | some n =>
    have h0 := newFd_none hn
    simp only [fresh_fields]
    cases hb : bindOpt e { w with next := w.next + 1 } bindA with
    | none => exact Or.inl ⟨rfl, put_none_eq h0⟩
    | some bd =>
      simp only
      generalize hs : setoptIf (bindA.isSome && b.tproxy && decide (mask > 0)) e Opt.mark mask
        (setoptIf (bindA.isSome && b.tproxy && decide (mask > 0)) e Opt.transparent 1
          { id := w.next, fam := a.fam, dgram := false, cloexec := b.cloexec, nonblock := b.cloexec && true }) = s
      have hopts : HasOpts e s (HalfOpt b bindA mask) := by
        intro o v
        rw [← hs, setoptIf_opts, setoptIf_opts]
        unfold HalfOpt
        simp only [List.not_mem_nil, false_or, Bool.and_eq_true, decide_eq_true_eq]
        grind
      have hfields : s.fam = a.fam ∧ s.dgram = false ∧ s.cloexec = b.cloexec ∧ s.nonblock = b.cloexec := by
        rw [← hs, setoptIf_eq, setoptIf_eq (bindA.isSome && b.tproxy && decide (mask > 0)) e .transparent]; simp
      obtain ⟨f1, f2, f3, f4⟩ := hfields
      have hbd : BoundOpt e bindA bd := by
        rcases bindOpt_spec hb with ⟨h1, h2⟩ | ⟨x, y, h1, h2, h3⟩
        · rw [h1]; exact h2
        · rw [h1]; exact ⟨y, h2, h3⟩
      have hok : ∀ c : ConnRes, c ≠ .fail → e.conn = c →
          ∃ s', Opened w ((bindNodeOpt { w with next := w.next + 1 } bindA s.id).put n
              (some { (if b.cloexec then s else noBlock e s) with bound := bd, peer := peerOf c a })) n s' ∧ s'.fam = a.fam ∧ s'.dgram = false ∧
            s'.cloexec = b.cloexec ∧ Blocking b e s' True ∧ HasOpts e s' (HalfOpt b bindA mask) ∧ BoundOpt e bindA s'.bound ∧ s'.peer = peerOf c a := by
        intro c _ _
        refine ⟨_, ⟨h0, by rw [put_fds, if_pos rfl], ?_⟩, ?_⟩
        · intro m hm; rw [put_fds, if_neg hm, bindNodeOpt_fds]
        · unfold Blocking noBlock
          cases hbc : b.cloexec with
          | true =>
            rw [hbc] at f3 f4
            simp only [if_true]
            exact ⟨f1, f2, f3, by simp [f4], hopts, hbd, trivial⟩
          | false =>
            rw [hbc] at f3 f4
            simp only [Bool.false_eq_true, if_false]
            cases e.nb with
            | true => exact ⟨f1, f2, f3, by simp, hopts, hbd, trivial⟩
            | false => exact ⟨f1, f2, f3, by simp [f4], hopts, hbd, trivial⟩
      cases hc : e.conn with
      | fail =>
        left
        refine ⟨rfl, ?_⟩
        simp only
        rw [put_none_eq (by rw [bindNodeOpt_fds]; exact h0), bindNodeOpt_fds]
      | ok =>
        right
        obtain ⟨s', h1, h2, h3, h4, h5, h6, h7, h8⟩ := hok .ok (by simp) hc
        exact ⟨n, s', rfl, h1, h2, h3, h4, h5, h6, h7, Or.inl ⟨rfl, h8⟩⟩
      | inprogress =>
        right
        obtain ⟨s', h1, h2, h3, h4, h5, h6, h7, h8⟩ := hok .inprogress (by simp) hc
        exact ⟨n, s', rfl, h1, h2, h3, h4, h5, h6, h7, Or.inr ⟨rfl, h8⟩⟩

/-- **C54.** `kconnection_half_connect` on a connection without a descriptor: it then has a descriptor of its own, opened as `half_exact` says, or none and
nothing is left open.  A connection to a path ignores source address and mask. -/
theorem connHalf_exact (b : Build) (e : Env) (w : World) (c : Conn) (bindA : Option Addr) (mask : Int) :
    (connHalf b e w c bindA mask).2.addr = c.addr ∧
    (((connHalf b e w c bindA mask).2.fd = none ∧ (connHalf b e w c bindA mask).1.fds = w.fds) ∨
     ∃ n s, (connHalf b e w c bindA mask).2.fd = some n ∧ Opened w (connHalf b e w c bindA mask).1 n s ∧ s.fam = c.addr.fam ∧ Blocking b e s True ∧
      (c.addr.fam = .unix → s.bound = none ∧ s.opts = []) ∧ (c.addr.fam ≠ .unix → BoundOpt e bindA s.bound ∧ HasOpts e s (HalfOpt b bindA mask))) := by
  refine ⟨rfl, ?_⟩
  unfold connHalf
  by_cases hu : c.addr.fam = .unix
  · simp only [hu, if_true]
    rcases half_exact b e w c.addr none 0 with ⟨h1, h2⟩ | ⟨n, s, h1, h2, h3, _, _, h6, h7, h8, _⟩
    · exact Or.inl ⟨h1, h2⟩
    · refine Or.inr ⟨n, s, h1, h2, by rw [h3, hu], h6, fun _ => ⟨h8, ?_⟩, fun h => absurd rfl h⟩
      cases ho : s.opts with
      | nil => rfl
      | cons x xs =>
        have := (h7 x.1 x.2).mp (by rw [ho]; simp)
        unfold HalfOpt at this
        simp at this
  · simp only [hu, if_false]
    rcases half_exact b e w c.addr bindA mask with ⟨h1, h2⟩ | ⟨n, s, h1, h2, h3, _, _, h6, h7, h8, _⟩
    · exact Or.inl ⟨h1, h2⟩
    · exact Or.inr ⟨n, s, h1, h2, h3, h6, fun h => h.elim, fun _ => ⟨h8, h7⟩⟩

end Kasync.Sock
