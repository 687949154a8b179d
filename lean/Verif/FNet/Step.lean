import Verif.FNet.InvL

/-!
# Calls of fibers: every step keeps the invariant (C63)
-/

namespace Kasync.FNet

/-- the call that ends with a TLS shutdown -/
def Then.call (c : Nat) : Then → Call
  | .ret => .sslShutdown c
  | .shut => .netShutdown c
  | .close => .close c

theorem then_call (c : Nat) (m : Then) : (Pend.shutdown c m).call = some (m.call c) := by cases m <;> rfl
theorem then_conn (c : Nat) (m : Then) : (m.call c).conn = some c := by cases m <;> rfl
theorem then_sd (f c : Nat) (m : Then) (r : Int) (d : Nat) : isSdRet d (.ret f (m.call c) r) = (c == d) := by cases m <;> rfl

section
variable {s : St} {f c : Nat} {v : List Ev}

theorem after_ok {m : Then} (h : Mid f (m.call c) v s) (hv : SdDone f c v) {C : Nat → Option Conn} (hF : InvF { s with conns := C })
    (hCd : ∀ d, d ≠ c → C d = s.conns d) (hCc : C c ≠ none)
    (hC : (C c = s.conns c ∧ ∀ k' l, s.conns c = some k' → k'.ssl = some l → l.handshake = true → l.shutdown = true) ∨
      ∃ k' l, s.conns c = some k' ∧ k'.ssl = some l ∧ l.handshake = true ∧ C c = some { k' with ssl := some { l with shutdown := true } }) :
    ∃ t, afterShutdown { s with conns := C } f c m = .ok t ∧ LP none t := by
  have key : ∀ d r, (C d = s.conns d ∧ (isSdRet d (.ret f (m.call c) r) = true → ∀ k' l, s.conns d = some k' → k'.ssl = some l → l.handshake = true → l.shutdown = true)) ∨
      ((m.call c).conn = some d ∧ (C d = none ∨ (isSdRet d (.ret f (m.call c) r) = true ∧ ∃ k' l, s.conns d = some k' ∧ k'.ssl = some l ∧ l.handshake = true ∧
        C d = some { k' with ssl := some { l with shutdown := true } }))) := by
    intro d r
    by_cases e : d = c
    · subst e
      rcases hC with hC | hC
      · exact .inl ⟨hC.1, fun _ => hC.2⟩
      · exact .inr ⟨then_conn d m, .inr ⟨by rw [then_sd]; simp, hC⟩⟩
    · refine .inl ⟨hCd d e, ?_⟩
      rw [then_sd]; simp [Ne.symm e]
  cases m with
  | ret => exact ⟨_, rfl, h.ret (.sslShutdown hv) C (fun d => key d 0)⟩
  | shut =>
    have h1 := h.ev (e := .sockShut c) (by simp [own, Then.call, Call.conn])
    exact ⟨_, rfl, h1.ret (.netShutdown hv) C (fun d => key d 0)⟩
  | close =>
    obtain ⟨u, hu, hi, _, a1, a2, a3, a4, a5, a6⟩ := realDestroy_ok hF hCc
    simp only [afterShutdown, hu]
    refine ⟨_, rfl, ?_⟩
    have key2 : ∀ d, (upd C c none d = s.conns d ∧ (isSdRet d (.ret f (.close c) 0) = true → ∀ k' l, s.conns d = some k' → k'.ssl = some l → l.handshake = true → l.shutdown = true)) ∨
      ((Call.close c).conn = some d ∧ (upd C c none d = none ∨ (isSdRet d (.ret f (.close c) 0) = true ∧ ∃ k' l, s.conns d = some k' ∧ k'.ssl = some l ∧ l.handshake = true ∧
        upd C c none d = some { k' with ssl := some { l with shutdown := true } }))) := by
      intro d
      by_cases e : d = c
      · subst e; exact .inr ⟨rfl, .inl (by simp [upd_apply])⟩
      · refine .inl ⟨by simp [upd_apply, e, hCd d e], ?_⟩
        simp [isSdRet, Ne.symm e]
    rcases a4 with a4 | ⟨fd, a4⟩
    · have h1 := h.ev (e := .destroyed c) (by simp [own, Then.call, Call.conn])
      refine (h1.ret (.close hv) (upd C c none) key2).congr ?_ ?_ ?_ ?_ ?_ ?_ <;> simp [St.ret, St.wait, St.ev, Then.call, *]
    · have h1 := (h.nob (e := .closed fd) rfl).ev (e := .destroyed c) (by simp [own, Then.call, Call.conn])
      refine (h1.ret (.close hv) (upd C c none) key2).congr ?_ ?_ ?_ ?_ ?_ ?_ <;> simp [St.ret, St.wait, St.ev, Then.call, *]

/-- the TLS session of the connection `c` is being shut down for the first time -/
def Shutting (s : St) (c : Nat) : Prop := ∃ k l, s.conns c = some k ∧ k.ssl = some l ∧ l.handshake = true ∧ l.shutdown = false

theorem setShutdown_eq {k : Conn} {l : Ssl} (hk : s.conns c = some k) (hl : k.ssl = some l) :
    setShutdown s c = { s with conns := upd s.conns c (some { k with ssl := some { l with shutdown := true } }) } := by
  unfold setShutdown
  rw [hk]
  simp only [hl]
  rfl

theorem after_set {m : Then} (h : Mid f (m.call c) v s) (hv : SdDone f c v) (hF : InvF s) (hs : Shutting s c) :
    ∃ t, afterShutdown (setShutdown s c) f c m = .ok t ∧ LP none t := by
  obtain ⟨k, l, hk, hl, hh, _⟩ := hs
  have hF' := setShutdown_invF hF c
  rw [setShutdown_eq hk hl] at hF' ⊢
  refine after_ok h hv hF' ?_ ?_ ?_
  · intro d hd; simp [upd_apply, hd]
  · simp [upd_apply]
  · exact .inr ⟨k, l, hk, hl, hh, by simp [upd_apply]⟩

theorem may_of {ex : Option Nat} (h : LP ex s) (hs : Shutting s c) : MayShutdown c s.log := by
  obtain ⟨k, l, hk, hl, h1, h2⟩ := hs
  rw [mayShutdown_iff, ← h.flagH c k l hk hl, ← h.flagS c k l hk hl]
  exact ⟨h1, h2⟩

theorem shutdownCall_ok {m : Then} {o : Out} (h : Mid f (m.call c) v s) (hF : InvF s) (hs : Shutting s c)
    (hv : v = [] ∨ ∃ w, v = .event f 0 :: w ∧ Again f (.sslSd c) w) : ∃ t, shutdownCall s f c m o = .ok t ∧ LP none t := by
  have h1 := h.sd (o := o) (then_conn c m) (may_of h.toLP hs)
  have hF1 : InvF (s.ev (.sslSd c o)) := hF.ev rfl
  by_cases e : o = .again
  · subst e
    refine ⟨_, rfl, h1.wait (then_call c m) ?_ ?_ ?_⟩
    · rintro d ⟨⟩
      obtain ⟨k, l, hk, _⟩ := hs
      simp only [St.ev]; simp [hk]
    · rintro d m' ⟨⟩; exact hs
    · have hview := h1.mview
      rw [then_conn] at hview
      constructor <;> simp only [reduceCtorEq, false_implies, implies_true, Pend.shutdown.injEq]
      rintro d m' ⟨rfl, rfl⟩
      rw [hview]
      rcases hv with rfl | ⟨w, rfl, hw⟩
      · exact .first
      · exact .more hw
  · have : shutdownCall s f c m o = afterShutdown (setShutdown (s.ev (.sslSd c o)) c) f c m := by
      cases o
      · rfl
      · exact absurd rfl e
      · rfl
    rw [this]
    refine after_set h1 ?_ hF1 hs
    rcases hv with rfl | ⟨w, rfl, hw⟩
    · exact .first e
    · exact .done e hw

theorem sslShutdown_ok {m : Then} {o : Out} {k : Conn} (h : Mid f (m.call c) [] s) (hF : InvF s) (hk : s.conns c = some k) :
    ∃ t, sslShutdown s f c k m o = .ok t ∧ LP none t := by
  have skip : (∀ l, k.ssl = some l → l.handshake = true → l.shutdown = true) → ∃ t, afterShutdown s f c m = .ok t ∧ LP none t := by
    intro hx
    refine after_ok (C := s.conns) h .skip hF (fun _ _ => rfl) (by simp [hk]) (.inl ⟨rfl, ?_⟩)
    intro k' l h1 h2 h3
    rw [hk] at h1; cases h1
    exact hx l h2 h3
  unfold sslShutdown
  cases hl : k.ssl with
  | none => exact skip (by simp [hl])
  | some l =>
    simp only
    split
    · next hh =>
      simp only [Bool.and_eq_true, Bool.not_eq_true'] at hh
      have hs : Shutting s c := ⟨k, l, hk, hl, hh.1, hh.2⟩
      split
      · exact shutdownCall_ok h hF hs (.inl rfl)
      · exact after_set h .skip hF hs
    · next hh =>
      refine skip ?_
      intro l' e h1
      rw [hl] at e; cases e
      simp only [Bool.and_eq_true, Bool.not_eq_true', not_and, Bool.not_eq_false] at hh
      exact hh h1

theorem handshakeCall_ok {o : Out} (h : Mid f (.handshake c) v s) (hc : s.conns c ≠ none)
    (hv : v = [] ∨ ∃ w, v = .event f 0 :: w ∧ Again f (.sslHs c) w) : ∃ t, handshakeCall s f c o = .ok t ∧ LP none t := by
  have h1 := h.ev (e := .sslHs c o) (by simp [own, Call.conn])
  cases o with
  | done =>
    refine ⟨_, rfl, h1.ret' (.handshake ?_) (fun _ => rfl)⟩
    rcases hv with rfl | ⟨w, rfl, hw⟩
    · exact .first
    · exact .done hw
  | fail =>
    refine ⟨_, rfl, h1.ret' (.handshake ?_) (fun _ => rfl)⟩
    rcases hv with rfl | ⟨w, rfl, hw⟩
    · exact .firstFail
    · exact .fail hw
  | again =>
    refine ⟨_, rfl, h1.wait rfl ?_ ?_ ?_⟩
    · rintro d ⟨⟩; exact hc
    · rintro d m' ⟨⟩
    · have hview := h1.mview
      rw [show (Call.handshake c).conn = some c from rfl] at hview
      constructor <;> simp only [reduceCtorEq, false_implies, implies_true, Pend.handshake.injEq]
      rintro d rfl
      rw [hview]
      rcases hv with rfl | ⟨w, rfl, hw⟩
      · exact .first
      · exact .more hw

/-- the end of `kfiber_net_accept` -/
theorem accepted_ok {tls got sslOk : Bool} (h : Mid f .accept [.event f (if got then 0 else -1)] s) (hF : InvF s) :
    ∃ t, accepted s f tls got sslOk = .ok t ∧ LP none t := by
  have hn : ∀ g, f ≠ g → (s.fib g).conn ≠ some s.nextConn := by
    intro g hg hc
    have h1 := h.busy g s.nextConn (by simpa using hg) hc
    have := h.connLt _ h1
    omega
  have hz : s.conns s.nextConn = none := by
    rcases hg : s.conns s.nextConn with _ | _
    · rfl
    · have := h.connLt s.nextConn (by simp [hg]); omega
  cases got with
  | false =>
    have h1 := h.ev (e := .setConn f none) (by simp [own])
    exact ⟨_, rfl, h1.ret' .acceptFailed (fun _ => rfl)⟩
  | true =>
    have ho : Mid f .accept [.event f 0] (fdOpen s) := (h.nob (e := .opened s.nextFd) rfl).congr rfl rfl rfl rfl rfl (Nat.le_refl _)
    have hnew := ho.new
    have hk : (connNew (fdOpen s)).conns s.nextConn = some {} := by simp [connNew, fdOpen, St.ev, upd_apply]
    have h2 := hnew.setConn (c := s.nextConn) (k1 := { fd := some s.nextFd }) hk (.inl rfl) (by simp)
    have hk2 : ((connNew (fdOpen s)).setConn s.nextConn (some { fd := some s.nextFd })).conns s.nextConn = some { fd := some s.nextFd } := by
      simp [St.setConn, upd_apply]
    cases tls with
    | false =>
      have h3 := h2.setConn (c := s.nextConn) (k1 := { fd := some s.nextFd, bound := true }) hk2 (.inl rfl) (by simp)
      have h4 := h3.ev (e := .setConn f (some s.nextConn)) (by simp [own])
      exact ⟨_, rfl, h4.ret' .accepted (fun _ => rfl)⟩
    | true =>
      cases sslOk with
      | true =>
        have h3 := h2.setConn (c := s.nextConn) (k1 := { fd := some s.nextFd, ssl := some {}, bound := true }) hk2 (.inr ⟨rfl, rfl⟩) (by simp)
        have h4 := h3.ev (e := .setConn f (some s.nextConn)) (by simp [own])
        exact ⟨_, rfl, h4.ret' .accepted (fun _ => rfl)⟩
      | false =>
        obtain ⟨u, hu, hi, _, a1, a2, a3, a4, a5, a6⟩ := realDestroy_ok (accept_invF hF) (c := s.nextConn) (by rw [hk2]; simp)
        simp only [accepted, hu, if_true, Bool.false_eq_true, if_false]
        refine ⟨_, rfl, ?_⟩
        have hcn : u.conns = s.conns := by
          rw [a1]; funext d
          simp only [upd_apply, St.setConn, connNew, fdOpen, St.ev]
          grind
        have dest : ∀ {s' : St} {v}, Mid f .accept v s' → s'.fib = s.fib → Mid f .accept v (s'.ev (.destroyed s.nextConn)) := by
          intro s' v hm hf
          refine ⟨hm.toLP.evx rfl (by simp) ?_, ?_, ?_, hm.excl⟩
          · intro g c' hg hc'
            have := hn g (by simpa using hg)
            rw [hf] at hc'
            simp only [relevant]; grind
          · simp only [St.ev]; rw [pendingCall_inner rfl]; exact hm.mpend
          · simp only [St.ev]; rw [view_inner rfl]; simpa [relevant, Call.conn] using hm.mview
        rcases a4 with a4 | ⟨fd, a4⟩
        · have h3 := (dest ho rfl).ev (e := .setConn f none) (by simp [own])
          refine (h3.ret' .acceptedNoTls (fun _ => rfl)).congr ?_ ?_ ?_ ?_ ?_ ?_ <;>
            simp [St.ret, St.wait, St.ev, St.setConn, connNew, fdOpen, hcn, a2, a3, a4, a5, a6]
        · have h3 := (dest (ho.nob (e := .closed fd) rfl) rfl).ev (e := .setConn f none) (by simp [own])
          refine (h3.ret' .acceptedNoTls (fun _ => rfl)).congr ?_ ?_ ?_ ?_ ?_ ?_ <;>
            simp [St.ret, St.wait, St.ev, St.setConn, connNew, fdOpen, hcn, a2, a3, a4, a5, a6]

/-! ## Addresses -/

/-- what the history part of the invariant sees of an address operation -/
structure Quiet (s t : St) : Prop where
  fib : t.fib = s.fib
  nfib : t.nfib = s.nfib
  queue : t.queue = s.queue
  conns : t.conns = s.conns
  next : t.nextConn = s.nextConn

theorem addrRefs_ok {a : Nat} (h : s.refs a ≠ 0) : addrRefs s a = .ok { s with refs := upd s.refs a (s.refs a + 1) } := by
  simp [addrRefs, h]

theorem addrRelease_ok {a : Nat} (h : s.refs a ≠ 0) {ex : Option Nat} (hl : LP ex s) : ∃ t, addrRelease s a = .ok t ∧ LP ex t := by
  unfold addrRelease
  rw [if_neg h]
  split
  · exact ⟨_, rfl, (hl.congr (t := { s with refs := upd s.refs a 0 }) rfl rfl rfl rfl rfl (Nat.le_refl _)).nob rfl⟩
  · exact ⟨_, rfl, hl.congr rfl rfl rfl rfl rfl (Nat.le_refl _)⟩

theorem getaddrCallback_ok {x : Option Nat} (h : Mid f .getaddr [.resolved f x] s) (hx : ∀ a, x = some a → s.refs a ≠ 0) :
    ∃ t, getaddrCallback s f x = .ok t ∧ LP none t ∧ ∀ a, x = some a → t.refs a ≠ 0 := by
  cases x with
  | none => exact ⟨_, rfl, h.ret' .noAddr (fun _ => rfl), by simp⟩
  | some a =>
    simp only [getaddrCallback, addrRefs_ok (hx a rfl)]
    refine ⟨_, rfl, ?_, ?_⟩
    · have h1 : Mid f .getaddr [.resolved f (some a)] { s with refs := upd s.refs a (s.refs a + 1), held := a :: s.held } :=
        h.congr rfl rfl rfl rfl rfl (Nat.le_refl _)
      exact (h1.ev (e := .setAddr f a) (by simp [own])).ret' .addr (fun _ => rfl)
    · rintro b ⟨⟩; simp [St.ret, St.wait, St.ev, upd_apply]

theorem getaddr_ok {l : Look} (h : Mid f .getaddr [] s) (hA : Counted s) : getaddr s f l = .disabled ∨ ∃ t, getaddr s f l = .ok t ∧ LP none t := by
  cases l with
  | numeric =>
    right
    have h1 := h.ev (e := .resolved f (some s.nextAddr)) (by simp [own])
    have h2 : Mid f .getaddr [.resolved f (some s.nextAddr)] { addrNew (s.ev (.resolved f (some s.nextAddr))) with held := s.nextAddr :: s.held } :=
      h1.congr rfl rfl rfl rfl rfl (Nat.le_refl _)
    exact ⟨_, rfl, (h2.ev (e := .setAddr f s.nextAddr) (by simp [own])).ret' .addr (fun _ => rfl)⟩
  | cached a =>
    simp only [getaddr]
    split
    · next hm =>
      right
      have hz : s.refs a ≠ 0 := by have := hA a; have := count_pos_of_mem hm; omega
      have hr : addrRefs (s.ev (.resolved f (some a))) a = .ok { s.ev (.resolved f (some a)) with refs := upd s.refs a (s.refs a + 1) } := addrRefs_ok hz
      rw [hr]
      have h1 := h.ev (e := .resolved f (some a)) (by simp [own])
      have h2 : Mid f .getaddr [.resolved f (some a)] { s.ev (.resolved f (some a)) with refs := upd s.refs a (s.refs a + 1) } :=
        h1.congr rfl rfl rfl rfl rfl (Nat.le_refl _)
      obtain ⟨u, hu, hl, hr⟩ := getaddrCallback_ok h2 (by rintro b ⟨⟩; simp [upd_apply])
      simp only [hu]
      exact addrRelease_ok (hr a rfl) hl
    · exact .inl rfl
  | negative =>
    right
    have h1 := h.ev (e := .resolved f none) (by simp [own])
    obtain ⟨u, hu, hl, _⟩ := getaddrCallback_ok h1 (by simp)
    exact ⟨u, hu, hl⟩
  | queued =>
    right
    refine ⟨_, rfl, h.wait rfl (by simp [Pend.conn]) (by simp) ?_⟩
    constructor <;> simp only [reduceCtorEq, false_implies, implies_true]
    intro _
    refine ⟨fun _ => h.mview, fun x hx => ?_⟩
    exact absurd rfl (h.queue f x hx).1

theorem answer_ok {x : Option Nat} (h : LP none s) (hA : Counted s) (hf : s.fib f = .getaddr) (hq : f ∉ s.queue.map Prod.fst) (hx : x.all (· ∈ s.cache) = true) :
    ∃ t, answer s f x = .ok t ∧ LP none t := by
  have key : ∀ R : Nat → Nat, LP none { s with refs := R, queue := s.queue ++ [(f, x)], log := .resolved f x :: s.log } := by
    intro R
    have hi : (Ev.resolved f x).inner = true := rfl
    constructor <;> simp only
    · exact h.nfib
    · intro g y hy
      rcases List.mem_append.mp hy with hy | hy
      · exact h.queue g y hy
      · simp only [List.mem_singleton, Prod.mk.injEq] at hy
        exact ⟨by simp, by rw [hy.1, hf]⟩
    · rw [List.map_append, List.nodup_append]
      refine ⟨h.qnodup, by simp, ?_⟩
      intro a ha b hb
      simp only [List.map_cons, List.map_nil, List.mem_singleton] at hb
      subst hb
      intro e; subst e; exact hq ha
    · exact h.busy
    · exact h.one
    · exact h.sdw
    · rw [answered_inner hi]; exact h.answered
    · intro g hg; rw [pendingCall_inner hi]; exact h.pend g hg
    · rw [truthful_inner hi]; exact h.truthful
    · intro g hg
      by_cases e : g = f
      · subst e
        rw [hf]
        have hv := ((h.waits g hg).get hf).1 hq
        constructor <;> simp only [reduceCtorEq, false_implies, implies_true]
        intro _
        refine ⟨fun hn => absurd (by simp) hn, ?_⟩
        intro y hy
        rw [view_inner hi, hv]
        rcases List.mem_append.mp hy with hy | hy
        · exact absurd (List.mem_map.mpr ⟨_, hy, rfl⟩) hq
        · simp only [List.mem_singleton, Prod.mk.injEq] at hy
          rw [hy.2]; simp [relevant]
      · have hw := h.waits g hg
        have hv : ∀ c, view g c (.resolved f x :: s.log) = view g c s.log := by
          intro c; rw [view_inner hi]; simp [relevant, Ne.symm e]
        have := hw.same (fun c _ => hv c)
        refine { this with get := ?_ }
        intro hp
        have := this.get hp
        refine ⟨fun hn => this.1 (fun hm => hn (by simp only [List.map_append, List.mem_append]; exact .inl hm)), ?_⟩
        intro y hy
        rcases List.mem_append.mp hy with hy | hy
        · exact this.2 y hy
        · simp only [List.mem_singleton, Prod.mk.injEq] at hy
          exact absurd hy.1 e
    · exact h.right
    · intro c k l h1 h2; rw [any_inner hi]; exact h.flagH c k l h1 h2
    · intro c k l h1 h2; rw [sdEnded_inner hi]; exact h.flagS c k l h1 h2
    · exact h.flagB
    · intro c k h1 h2; rw [any_inner hi]; exact h.noSsl c k h1 h2
    · intro c h1; rw [any_inner hi]; exact h.fresh c h1
    · exact h.connLt
  cases x with
  | none => exact ⟨_, rfl, key s.refs⟩
  | some a =>
    have hm : a ∈ s.cache := by simpa using hx
    have hz : s.refs a ≠ 0 := by have := hA a; have := count_pos_of_mem hm; omega
    simp only [answer, addrRefs_ok hz]
    exact ⟨_, rfl, key _⟩

theorem deliver_ok {x : Option Nat} (h : LP none s) (hA : Counted s) (hq : (f, x) ∈ s.queue) : ∃ t, deliver s f x = .ok t ∧ LP none t := by
  have hf := (h.queue f x hq).2
  have hv := ((h.waits f (by simp)).get hf).2 x hq
  have hne : ∀ y, (f, y) ∉ s.queue.erase (f, x) := by
    have hn := h.qnodup
    clear hv hf hA h
    generalize s.queue = q at *
    induction q with
    | nil => simp at hq
    | cons z q ih =>
      rw [List.map_cons, List.nodup_cons] at hn
      by_cases e : z = (f, x)
      · subst e
        rw [List.erase_cons_head]
        intro y hy
        exact hn.1 (List.mem_map.mpr ⟨_, hy, rfl⟩)
      · rw [List.erase_cons_tail (by simpa using e)]
        have hm : (f, x) ∈ q := by
          rcases List.mem_cons.mp hq with hq | hq
          · exact absurd hq.symm e
          · exact hq
        intro y hy
        rcases List.mem_cons.mp hy with hy | hy
        · subst hy; exact hn.1 (List.mem_map.mpr ⟨_, hm, rfl⟩)
        · exact ih hm hn.2 y hy
  have hmid : Mid f .getaddr [.resolved f x] { s with queue := s.queue.erase (f, x) } := by
    constructor
    · exact { h with
        nfib := fun g _ => h.nfib g (by simp)
        queue := fun g y hy => ⟨by rintro ⟨⟩; exact hne y hy, (h.queue g y (List.mem_of_mem_erase hy)).2⟩
        qnodup := List.Nodup.sublist (List.Sublist.map _ (List.erase_sublist)) h.qnodup
        busy := fun g c _ => h.busy g c (by simp)
        one := fun g g' c _ _ => h.one g g' c (by simp) (by simp)
        sdw := fun g c m _ => h.sdw g c m (by simp)
        pend := fun g _ => h.pend g (by simp)
        waits := fun g hg => by
          have hgf : g ≠ f := fun e => hg (by rw [e])
          have hw := h.waits g (by simp)
          refine { hw with get := fun hp => ⟨fun hn => (hw.get hp).1 ?_, fun y hy => (hw.get hp).2 y (List.mem_of_mem_erase hy)⟩ }
          intro hm
          obtain ⟨⟨a, b⟩, hm1, rfl⟩ := List.mem_map.mp hm
          refine hn (List.mem_map.mpr ⟨(a, b), ?_, rfl⟩)
          refine (List.mem_erase_of_ne ?_).mpr hm1
          intro e; exact hgf (congrArg Prod.fst e) }
    · show pendingCall f s.log = _
      rw [h.pend f (by simp), hf]; rfl
    · exact hv
    · intro g c _ hc; simp [Call.conn] at hc
  have hr : ∀ a, x = some a → s.refs a ≠ 0 := by
    rintro a rfl
    have h1 := hA a
    have h2 := count_filterMap_erase hq a
    simp only [if_true] at h2
    omega
  obtain ⟨u, hu, hl, hz⟩ := getaddrCallback_ok hmid hr
  simp only [deliver, hu]
  cases x with
  | none => exact ⟨_, rfl, hl⟩
  | some a => exact addrRelease_ok (hz a rfl) hl

end

/-! ## All steps -/

structure Inv (s : St) : Prop where
  addr : InvA s
  fds : InvF s
  log : LP none s

theorem inv_init : Inv init := ⟨invA_init, invF_init, lp_init⟩

/-- no step is undefined, and the history part of the invariant is kept -/
theorem step_ok {s : St} (h : Inv s) (o : Op) : step s o = .disabled ∨ ∃ t, step s o = .ok t ∧ LP none t := by
  have hL := h.log
  have hF := h.fds
  have hA := h.addr.counted
  cases o with
  | getaddr f l =>
    simp only [step]
    split
    · next hi => exact getaddr_ok (hL.start hi .getaddr (by simp [Call.conn]) (by simp)) hA
    · exact .inl rfl
  | release a =>
    simp only [step]
    split
    · next hm =>
      have hz : s.refs a ≠ 0 := by have := hA a; have := count_pos_of_mem hm; omega
      exact .inr (addrRelease_ok (s := { s with held := s.held.erase a }) hz (hL.congr rfl rfl rfl rfl rfl (Nat.le_refl _)))
    · exact .inl rfl
  | cacheDrop a =>
    simp only [step]
    split
    · next hm =>
      have hz : s.refs a ≠ 0 := by have := hA a; have := count_pos_of_mem hm; omega
      exact .inr (addrRelease_ok (s := { s with cache := s.cache.erase a }) hz (hL.congr rfl rfl rfl rfl rfl (Nat.le_refl _)))
    · exact .inl rfl
  | cacheNew => exact .inr ⟨_, rfl, hL.congr rfl rfl rfl rfl rfl (Nat.le_refl _)⟩
  | connNew => exact .inr ⟨_, rfl, hL.new⟩
  | connect f c half go =>
    simp only [step]
    split
    · next k hk =>
      split
      · next hc =>
        right
        have h1 := hL.start hc.1 (.connect c) (by rintro d ⟨⟩; exact hc.2.1) (by simp)
        simp only [FNet.connect]
        cases half with
        | false =>
          refine ⟨_, rfl, ?_⟩
          exact (h1.setConn (c := c) (k0 := k) (k1 := { k with fd := none }) hk (.inl rfl) (by simp)).ret' .noSocket (fun _ => rfl)
        | true =>
          have h2 : Mid f (.connect c) [] (fdOpen (s.ev (.call f (.connect c)))) :=
            (h1.nob (e := .opened s.nextFd) rfl).congr rfl rfl rfl rfl rfl (Nat.le_refl _)
          have h3 := h2.setConn (c := c) (k0 := k) (k1 := { k with fd := some s.nextFd, bound := true }) hk (.inl rfl) (by simp)
          cases go with
          | false => exact ⟨_, rfl, h3.ret' .noSocket (fun _ => rfl)⟩
          | true =>
            refine ⟨_, rfl, h3.wait rfl ?_ (by simp) ?_⟩
            · rintro d ⟨⟩; simp [St.setConn, upd_apply]
            · constructor <;> simp only [reduceCtorEq, false_implies, implies_true, Pend.connect.injEq]
              rintro d rfl; exact h3.mview
      · exact .inl rfl
    · exact .inl rfl
  | sslConnect c ok =>
    simp only [step]
    split
    · next k hk =>
      split
      · next hc =>
        right
        refine ⟨_, rfl, ?_⟩
        unfold FNet.sslConnect
        split
        · exact hL.setConn hk (.inr ⟨hc.2.2, rfl⟩) (fun h => h)
        · exact hL
      · exact .inl rfl
    · exact .inl rfl
  | accept f tls go =>
    simp only [step]
    split
    · next hi =>
      right
      have h1 := hL.start hi .accept (by simp [Call.conn]) (by simp)
      cases go with
      | false => exact ⟨_, rfl, h1.ret' .acceptRefused (fun _ => rfl)⟩
      | true =>
        refine ⟨_, rfl, h1.wait rfl (by simp [Pend.conn]) (by simp) ?_⟩
        constructor <;> (try simp only [reduceCtorEq, false_implies, implies_true]) <;> (try (intros; contradiction))
        intro t _; exact h1.mview
    · exact .inl rfl
  | handshake f c o =>
    simp only [step]
    split
    · next k hk =>
      split
      · next hc =>
        right
        unfold FNet.handshake
        cases hl : k.ssl with
        | none => exact absurd hl hc.2.2.1
        | some l =>
          exact handshakeCall_ok (hL.startHs hc.1 hk hl hc.2.2.2 hc.2.1) (by simp [St.setConn, upd_apply]) (.inl rfl)
      · exact .inl rfl
    · exact .inl rfl
  | sslShutdown f c o =>
    simp only [step]
    split
    · next k hk =>
      split
      · next hc => exact .inr (sslShutdown_ok (m := .ret) (hL.start hc.1 (.sslShutdown c) (by rintro d ⟨⟩; exact hc.2) (by simp)) (hF.ev rfl) hk)
      · exact .inl rfl
    · exact .inl rfl
  | netShutdown f c o =>
    simp only [step]
    split
    · next k hk =>
      split
      · next hc => exact .inr (sslShutdown_ok (m := .shut) (hL.start hc.1 (.netShutdown c) (by rintro d ⟨⟩; exact hc.2.1) (by simp)) (hF.ev rfl) hk)
      · exact .inl rfl
    · exact .inl rfl
  | close f c o =>
    simp only [step]
    split
    · next k hk =>
      split
      · next hc => exact .inr (sslShutdown_ok (m := .close) (hL.start hc.1 (.close c) (by rintro d ⟨⟩; exact hc.2) (by simp)) (hF.ev rfl) hk)
      · exact .inl rfl
    · exact .inl rfl
  | fileOpen ok sel =>
    right
    simp only [step, FNet.fileOpen]
    cases ok with
    | false => exact ⟨_, rfl, hL⟩
    | true =>
      have h1 : LP none (fdOpen s) := (hL.nob (e := .opened s.nextFd) rfl).congr rfl rfl rfl rfl rfl (Nat.le_refl _)
      cases sel with
      | true => exact ⟨_, rfl, h1.congr rfl rfl rfl rfl rfl (Nat.le_refl _)⟩
      | false =>
        have ho : (fdOpen s).open? s.nextFd = true := by simp [fdOpen, St.ev, upd_apply]
        simp only [fdClose, ho, if_true, Bool.false_eq_true, if_false]
        exact ⟨_, rfl, (h1.nob (e := .closed s.nextFd) rfl).congr rfl rfl rfl rfl rfl (Nat.le_refl _)⟩
  | fileClose i =>
    simp only [step]
    split
    · next fd hi =>
      right
      have ho := FP.file hF i fd hi
      simp only [FNet.fileClose, fdClose, ho, if_true]
      exact ⟨_, rfl, (hL.nob (e := .closed fd) rfl).congr rfl rfl rfl rfl rfl (Nat.le_refl _)⟩
    · exact .inl rfl
  | answer f x =>
    simp only [step]
    split
    · next hc => exact .inr (answer_ok hL hA hc.1 hc.2.1 hc.2.2)
    · exact .inl rfl
  | deliver f x =>
    simp only [step]
    split
    · next hc => exact .inr (deliver_ok hL hA hc)
    · exact .inl rfl
  | connected f got =>
    simp only [step]
    split
    · next c hf =>
      split
      · next hg =>
        right
        have hv := (hL.waits f (by simp)).con c hf
        have h1 : Mid f (.connect c) [] s := by
          have := hL.resume (f := f) (k := .connect c) (by rw [hf]; rfl) (fun x hx => by have := (hL.queue f x hx).2; rw [hf] at this; cases this)
            (by rintro d ⟨⟩; rw [hf]; rfl)
          rwa [show view f (Call.connect c).conn s.log = [] from hv] at this
        have h2 := h1.ev (e := .event f got) (by simp [own])
        refine ⟨_, rfl, h2.ret' ?_ (fun _ => rfl)⟩
        rcases hg with rfl | rfl
        · exact .connected
        · exact .refused
      · exact .inl rfl
    · exact .inl rfl
  | acceptEv f got sslOk =>
    simp only [step]
    split
    · next tls hf =>
      right
      have hv := (hL.waits f (by simp)).acc tls hf
      have h1 : Mid f .accept [] s := by
        have := hL.resume (f := f) (k := .accept) (by rw [hf]; rfl) (fun x hx => by have := (hL.queue f x hx).2; rw [hf] at this; cases this) (by simp [Call.conn])
        rwa [show view f Call.accept.conn s.log = [] from hv] at this
      exact accepted_ok (h1.ev (e := .event f (if got then 0 else -1)) (by simp [own])) (hF.ev rfl)
    · exact .inl rfl
  | sslEv f got o =>
    simp only [step]
    split
    · next hg =>
      split
      · next c hf =>
        right
        have hv := (hL.waits f (by simp)).hs c hf
        have h1 : Mid f (.handshake c) (view f (some c) s.log) s :=
          hL.resume (f := f) (k := .handshake c) (by rw [hf]; rfl) (fun x hx => by have := (hL.queue f x hx).2; rw [hf] at this; cases this)
            (by rintro d ⟨⟩; rw [hf]; rfl)
        have h2 := h1.ev (e := .event f got) (by simp [own])
        have hc := hL.busy f c (by simp) (by rw [hf]; rfl)
        unfold handshakeEvent
        rcases hg with rfl | rfl
        · exact handshakeCall_ok h2 hc (.inr ⟨_, rfl, hv⟩)
        · exact ⟨_, rfl, h2.ret' (.handshake (.broken hv)) (fun _ => rfl)⟩
      · next c m hf =>
        right
        have hv := (hL.waits f (by simp)).sd c m hf
        have h1 : Mid f (m.call c) (view f (some c) s.log) s := by
          have := hL.resume (f := f) (k := m.call c) (by rw [hf]; exact then_call c m) (fun x hx => by have := (hL.queue f x hx).2; rw [hf] at this; cases this)
            (by intro d hd; rw [then_conn] at hd; cases hd; rw [hf]; rfl)
          rwa [then_conn] at this
        have h2 := h1.ev (e := .event f got) (by simp [own])
        have hs : Shutting s c := hL.sdw f c m (by simp) hf
        unfold shutdownEvent
        rcases hg with rfl | rfl
        · exact shutdownCall_ok h2 (hF.ev rfl) hs (.inr ⟨_, rfl, hv⟩)
        · exact after_set h2 (.broken hv) (hF.ev rfl) hs
      · exact .inl rfl
    · exact .inl rfl
  | setErr c =>
    simp only [step]
    split
    · next k hk => exact .inr ⟨_, rfl, hL.setConn hk (.inl rfl) (fun h => h)⟩
    · exact .inl rfl

theorem step_inv {s t : St} {o : Op} (h : Inv s) (hs : step s o = .ok t) : Inv t := by
  refine ⟨step_invA h.addr hs, step_invF h.fds (fun f c => h.log.busy f c (by simp)) hs, ?_⟩
  rcases step_ok h o with e | ⟨u, e, hu⟩
  · rw [e] at hs; cases hs
  · rw [e] at hs; cases hs; exact hu

theorem inv_reachable {s : St} (h : Reachable step init s) : Inv s := h.invariant inv_init (fun _ _ _ => step_inv)

end Kasync.FNet
