import Verif.FNet.InvF

/-!
# Calls of fibers: the history (C63)
-/

namespace Kasync.FNet

/-! ## Reading the history -/

/-- some shutdown or close that returned came after a handshake was begun -/
def sdEnded (c : Nat) : List Ev → Bool
  | [] => false
  | e :: l => (isSdRet c e && l.any (isHs c)) || sdEnded c l

theorem sdEnded_iff {c : Nat} {l : List Ev} : sdEnded c l = true ↔ ∃ l2 e l1, l = l2 ++ e :: l1 ∧ isSdRet c e = true ∧ ∃ e' ∈ l1, isHs c e' = true := by
  induction l with
  | nil => simp [sdEnded]
  | cons x l ih =>
    simp only [sdEnded, Bool.or_eq_true, Bool.and_eq_true, ih]
    constructor
    · rintro (⟨h1, h2⟩ | ⟨l2, e, l1, h1, h2, h3⟩)
      · exact ⟨[], x, l, rfl, h1, by simpa using h2⟩
      · exact ⟨x :: l2, e, l1, by rw [h1]; rfl, h2, h3⟩
    · rintro ⟨l2, e, l1, h1, h2, h3⟩
      cases l2 with
      | nil =>
        simp only [List.nil_append, List.cons.injEq] at h1
        obtain ⟨rfl, rfl⟩ := h1
        exact .inl ⟨h2, by simpa using h3⟩
      | cons y l2 =>
        simp only [List.cons_append, List.cons.injEq] at h1
        exact .inr ⟨l2, e, l1, h1.2, h2, h3⟩

theorem mayShutdown_iff {c : Nat} {l : List Ev} : MayShutdown c l ↔ l.any (isHs c) = true ∧ sdEnded c l = false := by
  unfold MayShutdown
  rw [← Bool.not_eq_true, sdEnded_iff]
  constructor
  · rintro ⟨h1, h2⟩
    refine ⟨by simpa using h1, ?_⟩
    rintro ⟨l2, e, l1, h3, h4, e', h5, h6⟩
    have := h2 l2 e l1 h3 h4 e' h5
    rw [this] at h6; simp at h6
  · rintro ⟨h1, h2⟩
    refine ⟨by simpa using h1, ?_⟩
    intro l2 e l1 h3 h4 e' h5
    rw [← Bool.not_eq_true]
    intro h6
    exact h2 ⟨l2, e, l1, h3, h4, e', h5, h6⟩

theorem sdEnded_any {c : Nat} {l : List Ev} (h : sdEnded c l = true) : l.any (isHs c) = true := by
  obtain ⟨l2, e, l1, rfl, _, e', h1, h2⟩ := sdEnded_iff.mp h
  simp only [List.any_eq_true]
  exact ⟨e', by simp [h1], h2⟩

/-- an event that does not begin or end a call -/
def Ev.inner : Ev → Bool
  | .call .. | .ret .. => false
  | _ => true

theorem pendingCall_inner {e : Ev} (h : e.inner = true) (f : Nat) (l : List Ev) : pendingCall f (e :: l) = pendingCall f l := by
  cases e <;> simp [Ev.inner] at h <;> rfl

theorem answered_inner {e : Ev} (h : e.inner = true) (l : List Ev) : Answered (e :: l) = Answered l := by
  cases e <;> simp [Ev.inner] at h <;> rfl

theorem truthful_inner {e : Ev} (h : e.inner = true) (l : List Ev) : Truthful (e :: l) = Truthful l := by
  cases e <;> simp [Ev.inner] at h <;> rfl

theorem view_inner {e : Ev} (h : e.inner = true) (f : Nat) (c : Option Nat) (l : List Ev) :
    view f c (e :: l) = if relevant f c e then e :: view f c l else view f c l := by
  cases e <;> simp [Ev.inner] at h <;> rfl

theorem inner_flags {e : Ev} (h : e.inner = true) (c : Nat) : isHs c e = false ∧ isSdRet c e = false := by
  cases e <;> simp [Ev.inner] at h <;> exact ⟨rfl, rfl⟩

theorem any_inner {e : Ev} (h : e.inner = true) (c : Nat) (l : List Ev) : (e :: l).any (isHs c) = l.any (isHs c) := by
  simp [List.any_cons, (inner_flags h c).1]

theorem sdEnded_inner {e : Ev} (h : e.inner = true) (c : Nat) (l : List Ev) : sdEnded c (e :: l) = sdEnded c l := by
  simp [sdEnded, (inner_flags h c).2]

theorem view_ret (f : Nat) (c : Option Nat) (g : Nat) (k : Call) (r : Int) (l : List Ev) : view f c (.ret g k r :: l) = view f c l := by
  simp [view, relevant]

theorem right_other {e : Ev} (h : ∀ c o, e ≠ .sslSd c o) (l : List Ev) : ShutdownRight (e :: l) = ShutdownRight l := by
  cases e <;> first | rfl | exact absurd rfl (h _ _)

/-! ## The invariant -/

/-- clauses of one fiber that waits -/
structure Waits (f : Nat) (p : Pend) (q : List (Nat × Option Nat)) (log : List Ev) : Prop where
  get : p = .getaddr → (f ∉ q.map Prod.fst → view f none log = []) ∧ ∀ x, (f, x) ∈ q → view f none log = [.resolved f x]
  con : ∀ c, p = .connect c → view f (some c) log = []
  acc : ∀ t, p = .accept t → view f none log = []
  hs : ∀ c, p = .handshake c → Again f (.sslHs c) (view f (some c) log)
  sd : ∀ c m, p = .shutdown c m → Again f (.sslSd c) (view f (some c) log)

/-- the invariant; the clauses of the fiber `ex` are left out while it is inside a call -/
structure LP (ex : Option Nat) (s : St) : Prop where
  nfib : ∀ f, ex ≠ some f → s.fib f ≠ .idle → f < s.nfib
  queue : ∀ f x, (f, x) ∈ s.queue → ex ≠ some f ∧ s.fib f = .getaddr
  qnodup : (s.queue.map Prod.fst).Nodup
  busy : ∀ f c, ex ≠ some f → (s.fib f).conn = some c → s.conns c ≠ none
  one : ∀ f g c, ex ≠ some f → ex ≠ some g → (s.fib f).conn = some c → (s.fib g).conn = some c → f = g
  sdw : ∀ f c m, ex ≠ some f → s.fib f = .shutdown c m → ∃ k l, s.conns c = some k ∧ k.ssl = some l ∧ l.handshake = true ∧ l.shutdown = false
  answered : Answered s.log
  pend : ∀ f, ex ≠ some f → pendingCall f s.log = (s.fib f).call
  truthful : Truthful s.log
  waits : ∀ f, ex ≠ some f → Waits f (s.fib f) s.queue s.log
  right : ShutdownRight s.log
  flagH : ∀ c k l, s.conns c = some k → k.ssl = some l → l.handshake = s.log.any (isHs c)
  flagS : ∀ c k l, s.conns c = some k → k.ssl = some l → l.shutdown = sdEnded c s.log
  flagB : ∀ c k l, s.conns c = some k → k.ssl = some l → l.handshake = true → k.bound = true
  noSsl : ∀ c k, s.conns c = some k → k.ssl = none → s.log.any (isHs c) = false
  fresh : ∀ c, s.nextConn ≤ c → s.log.any (isHs c) = false
  connLt : ∀ c, s.conns c ≠ none → c < s.nextConn

/-- inside the call `k` of fiber `f`, in which `v` happened so far -/
structure Mid (f : Nat) (k : Call) (v : List Ev) (s : St) : Prop extends LP (some f) s where
  mpend : pendingCall f s.log = some k
  mview : view f k.conn s.log = v
  excl : ∀ g c, g ≠ f → k.conn = some c → (s.fib g).conn ≠ some c

theorem lp_init : LP none init := by
  constructor <;> simp [init, Answered, pendingCall, Truthful, ShutdownRight, Pend.conn, Pend.call]
  intro f
  constructor <;> simp

theorem free_iff {s : St} (h : LP none s) {c : Nat} : s.Free c ↔ ∀ f, (s.fib f).conn ≠ some c := by
  unfold St.Free
  constructor
  · intro hf f hc
    by_cases e : s.fib f = .idle
    · rw [e] at hc; simp [Pend.conn] at hc
    · exact hf f (h.nfib f (by simp) e) hc
  · intro hf f _; exact hf f

section
variable {s : St} {f : Nat} {k : Call} {v : List Ev}

/-- a call begins -/
theorem LP.start (h : LP none s) (hi : s.fib f = .idle) (k : Call) (hx : ∀ c, k.conn = some c → s.Free c) (hh : ∀ c, k ≠ .handshake c) : Mid f k [] (s.ev (.call f k)) := by
  have hfl : ∀ c, isHs c (.call f k) = false := by intro c; cases k <;> first | rfl | exact absurd rfl (hh _)
  have hq : ∀ x, (f, x) ∉ s.queue := fun x hx => by have := (h.queue f x hx).2; rw [hi] at this; simp at this
  constructor
  · constructor <;> simp only [St.ev]
    · exact fun g _ => h.nfib g (by simp)
    · intro g x hx
      refine ⟨?_, (h.queue g x hx).2⟩
      rintro ⟨⟩
      exact hq x hx
    · exact h.qnodup
    · exact fun g c _ => h.busy g c (by simp)
    · exact fun g g' c _ _ => h.one g g' c (by simp) (by simp)
    · exact fun g c m _ => h.sdw g c m (by simp)
    · exact ⟨by rw [h.pend f (by simp), hi]; rfl, h.answered⟩
    · intro g hg
      have : f ≠ g := fun e => hg (by rw [e])
      simp only [pendingCall, this, if_false]
      exact h.pend g (by simp)
    · exact h.truthful
    · intro g hg
      have : f ≠ g := fun e => hg (by rw [e])
      have hv : ∀ c, view g c (.call f k :: s.log) = view g c s.log := by intro c; simp [view, this]
      have := h.waits g (by simp)
      constructor <;> simp only [hv]
      · exact this.get
      · exact this.con
      · exact this.acc
      · exact this.hs
      · exact this.sd
    · exact h.right
    · intro c k l h1 h2; rw [List.any_cons, hfl, Bool.false_or]; exact h.flagH c k l h1 h2
    · intro c k l h1 h2; rw [sdEnded]; simp only [isSdRet, Bool.false_and, Bool.false_or]; exact h.flagS c k l h1 h2
    · exact h.flagB
    · intro c k h1 h2; rw [List.any_cons, hfl, Bool.false_or]; exact h.noSsl c k h1 h2
    · intro c h1; rw [List.any_cons, hfl, Bool.false_or]; exact h.fresh c h1
    · exact h.connLt
  · simp [St.ev, pendingCall]
  · simp [St.ev, view]
  · intro g c _ hc
    exact (free_iff h).mp (hx c hc) g

/-- a waiting fiber goes on -/
theorem LP.resume (h : LP none s) (hk : (s.fib f).call = some k) (hq : ∀ x, (f, x) ∉ s.queue) (hc : ∀ c, k.conn = some c → (s.fib f).conn = some c) :
    Mid f k (view f k.conn s.log) s := by
  constructor
  · exact { h with
      nfib := fun g _ => h.nfib g (by simp)
      queue := fun g x hx => ⟨by rintro ⟨⟩; exact hq x hx, (h.queue g x hx).2⟩
      busy := fun g c _ => h.busy g c (by simp)
      one := fun g g' c _ _ => h.one g g' c (by simp) (by simp)
      sdw := fun g c m _ => h.sdw g c m (by simp)
      pend := fun g _ => h.pend g (by simp)
      waits := fun g _ => h.waits g (by simp) }
  · rw [h.pend f (by simp), hk]
  · rfl
  · intro g c hg hkc hgc
    exact hg (h.one g f c (by simp) (by simp) hgc (hc c hkc))

/-- `e` is an event of this call -/
def own (f : Nat) (k : Call) : Ev → Bool
  | .event g _ | .resolved g _ | .setAddr g _ | .setConn g _ => g == f
  | .sslHs d _ | .sockShut d | .destroyed d => k.conn == some d
  | _ => false

/-- an event that belongs to no call -/
def nobody : Ev → Bool
  | .opened _ | .closed _ | .addrFreed _ => true
  | _ => false

theorem call_conn {p : Pend} {k : Call} (h : p.call = some k) : k.conn = p.conn := by
  cases p with
  | shutdown c m => cases m <;> simp [Pend.call] at h <;> subst h <;> rfl
  | _ => simp [Pend.call] at h <;> subst h <;> rfl

theorem Waits.same {g : Nat} {p : Pend} {q : List (Nat × Option Nat)} {l l' : List Ev} (h : Waits g p q l) (hv : ∀ c, (c = none ∨ c = p.conn) → view g c l' = view g c l) :
    Waits g p q l' := by
  constructor
  · intro e; rw [hv none (.inl rfl)]; exact h.get e
  · intro c e; rw [hv (some c) (.inr (by rw [e]; rfl))]; exact h.con c e
  · intro t e; rw [hv none (.inl rfl)]; exact h.acc t e
  · intro c e; rw [hv (some c) (.inr (by rw [e]; rfl))]; exact h.hs c e
  · intro c m e; rw [hv (some c) (.inr (by rw [e]; rfl))]; exact h.sd c m e

/-- an event nobody's view changes by, except perhaps that of `f` -/
theorem LP.evx {ex : Option Nat} (h : LP ex s) {e : Ev} (hi : e.inner = true) (hr : ∀ c o, e ≠ .sslSd c o) (hv : ∀ g c, ex ≠ some g → (c = none ∨ c = (s.fib g).conn) → relevant g c e = false) :
    LP ex (s.ev e) := by
  constructor <;> simp only [St.ev]
  · exact h.nfib
  · exact h.queue
  · exact h.qnodup
  · exact h.busy
  · exact h.one
  · exact h.sdw
  · rw [answered_inner hi]; exact h.answered
  · intro g hg; rw [pendingCall_inner hi]; exact h.pend g hg
  · rw [truthful_inner hi]; exact h.truthful
  · intro g hg
    refine (h.waits g hg).same fun c hc => ?_
    rw [view_inner hi, hv g c hg hc]; rfl
  · rw [right_other hr]; exact h.right
  · intro c k l h1 h2; rw [any_inner hi]; exact h.flagH c k l h1 h2
  · intro c k l h1 h2; rw [sdEnded_inner hi]; exact h.flagS c k l h1 h2
  · exact h.flagB
  · intro c k h1 h2; rw [any_inner hi]; exact h.noSsl c k h1 h2
  · intro c h1; rw [any_inner hi]; exact h.fresh c h1
  · exact h.connLt

theorem LP.nob {ex : Option Nat} (h : LP ex s) {e : Ev} (hn : nobody e = true) : LP ex (s.ev e) := by
  refine h.evx ?_ ?_ ?_
  · cases e <;> simp [nobody] at hn <;> rfl
  · intro c o e; subst e; simp [nobody] at hn
  · intro g c _ _; cases e <;> simp [nobody] at hn <;> rfl

theorem Mid.nob (h : Mid f k v s) {e : Ev} (hn : nobody e = true) : Mid f k v (s.ev e) := by
  have hi : e.inner = true := by cases e <;> simp [nobody] at hn <;> rfl
  have hr : ∀ c, relevant f c e = false := by intro c; cases e <;> simp [nobody] at hn <;> rfl
  refine ⟨h.toLP.nob hn, ?_, ?_, h.excl⟩
  · simp only [St.ev]; rw [pendingCall_inner hi]; exact h.mpend
  · simp only [St.ev]; rw [view_inner hi, hr]; exact h.mview

theorem own_rel {e : Ev} (ho : own f k e = true) : relevant f k.conn e = true := by
  cases e <;> simp [own] at ho <;> simp [relevant, ho]

theorem Mid.ev (h : Mid f k v s) {e : Ev} (ho : own f k e = true) : Mid f k (e :: v) (s.ev e) := by
  have hi : e.inner = true := by cases e <;> simp [own] at ho <;> rfl
  have hr : relevant f k.conn e = true := own_rel ho
  refine ⟨h.toLP.evx hi ?_ ?_, ?_, ?_, h.excl⟩
  · intro c o e; subst e; simp [own] at ho
  · intro g c hg hc
    have hgf : g ≠ f := fun e => hg (by rw [e])
    have hex := fun c => h.excl g c hgf
    cases e <;> simp [own] at ho <;> simp [relevant] <;> grind
  · simp only [St.ev]; rw [pendingCall_inner hi]; exact h.mpend
  · simp only [St.ev]; rw [view_inner hi, hr, if_pos rfl, h.mview]

/-- `SSL_shutdown` -/
theorem Mid.sd (h : Mid f k v s) {c : Nat} {o : Out} (hc : k.conn = some c) (hm : MayShutdown c s.log) : Mid f k (.sslSd c o :: v) (s.ev (.sslSd c o)) := by
  have hi : (Ev.sslSd c o).inner = true := rfl
  constructor
  · constructor <;> simp only [St.ev]
    · exact h.nfib
    · exact h.queue
    · exact h.qnodup
    · exact h.busy
    · exact h.one
    · exact h.sdw
    · rw [answered_inner hi]; exact h.answered
    · intro g hg; rw [pendingCall_inner hi]; exact h.pend g hg
    · rw [truthful_inner hi]; exact h.truthful
    · intro g hg
      have hgf : g ≠ f := fun e => hg (by rw [e])
      refine (h.waits g hg).same fun c' hc' => ?_
      have hex := h.excl g c hgf hc
      rw [view_inner hi]
      have : relevant g c' (.sslSd c o) = false := by simp [relevant]; grind
      rw [this]; rfl
    · exact ⟨hm, h.right⟩
    · intro c k l h1 h2; rw [any_inner hi]; exact h.flagH c k l h1 h2
    · intro c k l h1 h2; rw [sdEnded_inner hi]; exact h.flagS c k l h1 h2
    · exact h.flagB
    · intro c k h1 h2; rw [any_inner hi]; exact h.noSsl c k h1 h2
    · intro c h1; rw [any_inner hi]; exact h.fresh c h1
    · exact h.connLt
  · simp only [St.ev]; rw [pendingCall_inner hi]; exact h.mpend
  · simp only [St.ev]; rw [view_inner hi]; simp [relevant, hc, ← h.mview]
  · exact h.excl

/-- the fiber waits -/
theorem Mid.wait (h : Mid f k v s) {p : Pend} (hp : p.call = some k) (hb : ∀ c, p.conn = some c → s.conns c ≠ none)
    (hsd : ∀ c m, p = .shutdown c m → ∃ k l, s.conns c = some k ∧ k.ssl = some l ∧ l.handshake = true ∧ l.shutdown = false)
    (hw : Waits f p s.queue s.log) : LP none (s.wait f p) := by
  have hne : ∀ g, g ≠ f → some f ≠ some g := fun g hg e => hg (by cases e; rfl)
  have hcc : p.conn = k.conn := (call_conn hp).symm
  constructor <;> simp only [St.wait, upd_apply]
  · intro g _ hg
    by_cases e : g = f
    · subst e; omega
    · simp only [e, if_false] at hg; have := h.nfib g (hne g e) hg; omega
  · intro g x hx
    have := h.queue g x hx
    have e : g ≠ f := fun e => this.1 (by rw [e])
    simp only [e, if_false]; exact ⟨by simp, this.2⟩
  · exact h.qnodup
  · intro g c _ hg
    by_cases e : g = f
    · simp only [e, if_true] at hg; exact hb c hg
    · simp only [e, if_false] at hg; exact h.busy g c (hne g e) hg
  · intro g g' c _ _ hg hg'
    by_cases e : g = f <;> by_cases e' : g' = f
    · rw [e, e']
    · simp only [e, if_true] at hg; simp only [e', if_false] at hg'
      exact absurd hg' (h.excl g' c e' (by rw [← hcc]; exact hg))
    · simp only [e, if_false] at hg; simp only [e', if_true] at hg'
      exact absurd hg (h.excl g c e (by rw [← hcc]; exact hg'))
    · simp only [e, if_false] at hg; simp only [e', if_false] at hg'
      exact h.one g g' c (hne g e) (hne g' e') hg hg'
  · intro g c m _ hg
    by_cases e : g = f
    · simp only [e, if_true] at hg; exact hsd c m hg
    · simp only [e, if_false] at hg; exact h.sdw g c m (hne g e) hg
  · exact h.answered
  · intro g _
    by_cases e : g = f
    · simp only [e, if_true]; rw [hp]; exact h.mpend
    · simp only [e, if_false]; exact h.pend g (hne g e)
  · exact h.truthful
  · intro g _
    by_cases e : g = f
    · simp only [e, if_true]; exact hw
    · simp only [e, if_false]; exact h.waits g (hne g e)
  · exact h.right
  · exact h.flagH
  · exact h.flagS
  · exact h.flagB
  · exact h.noSsl
  · exact h.fresh
  · exact h.connLt

/-- only these parts of the state matter -/
theorem LP.congr {ex : Option Nat} {s t : St} (h : LP ex s) (h1 : t.fib = s.fib) (h2 : t.nfib = s.nfib) (h3 : t.queue = s.queue) (h4 : t.conns = s.conns)
    (h5 : t.log = s.log) (h6 : s.nextConn ≤ t.nextConn) : LP ex t := by
  constructor
  · rw [h1, h2]; exact h.nfib
  · rw [h1, h3]; exact h.queue
  · rw [h3]; exact h.qnodup
  · rw [h1, h4]; exact h.busy
  · rw [h1]; exact h.one
  · rw [h1, h4]; exact h.sdw
  · rw [h5]; exact h.answered
  · rw [h1, h5]; exact h.pend
  · rw [h5]; exact h.truthful
  · rw [h1, h3, h5]; exact h.waits
  · rw [h5]; exact h.right
  · rw [h4, h5]; exact h.flagH
  · rw [h4, h5]; exact h.flagS
  · rw [h4]; exact h.flagB
  · rw [h4, h5]; exact h.noSsl
  · rw [h5]; exact fun c hc => h.fresh c (by omega)
  · rw [h4]; exact fun c hc => by have := h.connLt c hc; omega

theorem Mid.congr {t : St} (h : Mid f k v s) (h1 : t.fib = s.fib) (h2 : t.nfib = s.nfib) (h3 : t.queue = s.queue) (h4 : t.conns = s.conns)
    (h5 : t.log = s.log) (h6 : s.nextConn ≤ t.nextConn) : Mid f k v t := by
  refine ⟨h.toLP.congr h1 h2 h3 h4 h5 h6, ?_, ?_, ?_⟩
  · rw [h5]; exact h.mpend
  · rw [h5]; exact h.mview
  · rw [h1]; exact h.excl

/-- a connection gets a descriptor, a selector, an error mark or a TLS session -/
theorem LP.setConn {ex : Option Nat} (h : LP ex s) {c : Nat} {k0 k1 : Conn} (hc : s.conns c = some k0)
    (hs : k1.ssl = k0.ssl ∨ (k0.ssl = none ∧ k1.ssl = some {})) (hb : k0.bound = true → k1.bound = true) : LP ex (s.setConn c (some k1)) := by
  have hn : ∀ d, s.conns d ≠ none → (upd s.conns c (some k1)) d ≠ none := by
    intro d hd; simp only [upd_apply]; split <;> simp [hd]
  have h1 := h.flagH; have h2 := h.flagS; have h3 := h.flagB; have h4 := h.noSsl
  have h5 : sdEnded c s.log = true → s.log.any (isHs c) = true := sdEnded_any
  refine { h with busy := ?_, sdw := ?_, flagH := ?_, flagS := ?_, flagB := ?_, noSsl := ?_, connLt := ?_ }
  · intro g d hg hd; exact hn d (h.busy g d hg hd)
  · intro g d m hg hd
    obtain ⟨k, l, a1, a2, a3, a4⟩ := h.sdw g d m hg hd
    simp only [St.setConn, upd_apply]
    split
    · next e =>
      subst e
      rw [hc] at a1; cases a1
      rcases hs with hs | hs
      · exact ⟨k1, l, rfl, by rw [hs]; exact a2, a3, a4⟩
      · rw [hs.1] at a2; cases a2
    · exact ⟨k, l, a1, a2, a3, a4⟩
  · intro d k l; simp only [St.setConn, upd_apply]
    split
    · next e =>
      subst e
      rintro ⟨⟩ hl
      rcases hs with hs | hs
      · exact h1 d k0 l hc (by rw [← hs]; exact hl)
      · have := h4 d k0 hc hs.1; rw [hs.2] at hl; cases hl; exact this.symm
    · exact h1 d k l
  · intro d k l; simp only [St.setConn, upd_apply]
    split
    · next e =>
      subst e
      rintro ⟨⟩ hl
      rcases hs with hs | hs
      · exact h2 d k0 l hc (by rw [← hs]; exact hl)
      · have := h4 d k0 hc hs.1; rw [hs.2] at hl; cases hl
        cases hz : sdEnded d s.log with
        | false => rfl
        | true => rw [h5 hz] at this; cases this
    · exact h2 d k l
  · intro d k l; simp only [St.setConn, upd_apply]
    split
    · next e =>
      subst e
      rintro ⟨⟩ hl
      rcases hs with hs | hs
      · exact fun hh => hb (h3 d k0 l hc (by rw [← hs]; exact hl) hh)
      · rw [hs.2] at hl; cases hl; simp
    · exact h3 d k l
  · intro d k; simp only [St.setConn, upd_apply]
    split
    · next e =>
      subst e
      rintro ⟨⟩ hl
      rcases hs with hs | hs
      · exact h4 d k0 hc (by rw [← hs]; exact hl)
      · rw [hs.2] at hl; cases hl
    · exact h4 d k
  · intro d; simp only [St.setConn, upd_apply]
    split
    · next e => subst e; intro _; exact h.connLt d (by simp [hc])
    · exact h.connLt d

theorem Mid.setConn (h : Mid f k v s) {c : Nat} {k0 k1 : Conn} (hc : s.conns c = some k0)
    (hs : k1.ssl = k0.ssl ∨ (k0.ssl = none ∧ k1.ssl = some {})) (hb : k0.bound = true → k1.bound = true) : Mid f k v (s.setConn c (some k1)) :=
  ⟨h.toLP.setConn hc hs hb, h.mpend, h.mview, h.excl⟩

theorem LP.new {ex : Option Nat} (h : LP ex s) : LP ex (connNew s) := by
  have hz : s.conns s.nextConn = none := by
    rcases hg : s.conns s.nextConn with _ | _
    · rfl
    · have := h.connLt s.nextConn (by simp [hg]); omega
  have hn : ∀ d, s.conns d ≠ none → (upd s.conns s.nextConn (some {})) d ≠ none := by
    intro d hd; simp only [upd_apply]; split <;> simp [hd]
  refine { h with busy := ?_, sdw := ?_, flagH := ?_, flagS := ?_, flagB := ?_, noSsl := ?_, connLt := ?_, fresh := ?_ }
  · intro g d hg hd; exact hn d (h.busy g d hg hd)
  · intro g d m hg hd
    obtain ⟨k, l, a1, a2, a3, a4⟩ := h.sdw g d m hg hd
    have : d ≠ s.nextConn := fun e => by rw [e, hz] at a1; cases a1
    simp only [connNew, upd_apply, this, if_false]
    exact ⟨k, l, a1, a2, a3, a4⟩
  · intro d k l; simp only [connNew, upd_apply]
    split
    · rintro ⟨⟩ hl; simp at hl
    · exact h.flagH d k l
  · intro d k l; simp only [connNew, upd_apply]
    split
    · rintro ⟨⟩ hl; simp at hl
    · exact h.flagS d k l
  · intro d k l; simp only [connNew, upd_apply]
    split
    · rintro ⟨⟩ hl; simp at hl
    · exact h.flagB d k l
  · intro d k; simp only [connNew, upd_apply]
    split
    · next e => rintro ⟨⟩ _; exact h.fresh d (by omega)
    · exact h.noSsl d k
  · intro d hd; simp only [connNew] at hd; exact h.fresh d (by omega)
  · intro d; simp only [connNew, upd_apply]
    split
    · next e => intro _; omega
    · intro hd; have := h.connLt d hd; omega

theorem Mid.new (h : Mid f k v s) : Mid f k v (connNew s) := ⟨h.toLP.new, h.mpend, h.mview, h.excl⟩

theorem waits_idle (g : Nat) (q : List (Nat × Option Nat)) (l : List Ev) : Waits g .idle q l := by
  constructor <;> simp

/-- the call returns; `C`: the connections afterwards, unchanged except that a shutdown marks its connection and a close destroys it -/
theorem Mid.ret (h : Mid f k v s) {r : Int} (hj : Just f k v r) (C : Nat → Option Conn)
    (hC : ∀ c, (C c = s.conns c ∧ (isSdRet c (.ret f k r) = true → ∀ k' l, s.conns c = some k' → k'.ssl = some l → l.handshake = true → l.shutdown = true)) ∨
      (k.conn = some c ∧ (C c = none ∨ (isSdRet c (.ret f k r) = true ∧ ∃ k' l, s.conns c = some k' ∧ k'.ssl = some l ∧ l.handshake = true ∧
        C c = some { k' with ssl := some { l with shutdown := true } })))) :
    LP none { s.ret f k r with conns := C } := by
  have hne : ∀ g, g ≠ f → some f ≠ some g := fun g hg e => hg (by cases e; rfl)
  have hsame : ∀ g c, g ≠ f → (s.fib g).conn = some c → C c = s.conns c := by
    intro g c hg hc
    rcases hC c with ⟨e, _⟩ | ⟨e, _⟩
    · exact e
    · exact absurd hc (h.excl g c hg e)
  have hh : ∀ c, (Ev.ret f k r :: s.log).any (isHs c) = s.log.any (isHs c) := by intro c; simp [List.any_cons, isHs]
  have hfib : ∀ g, upd s.fib f .idle g = if g = f then .idle else s.fib g := fun g => rfl
  constructor <;> simp only [St.ret, St.wait, St.ev]
  · intro g _ hg
    by_cases e : g = f
    · subst e; omega
    · simp only [hfib, e, if_false] at hg; have := h.nfib g (hne g e) hg; omega
  · intro g x hx
    have := h.queue g x hx
    have e : g ≠ f := fun e => this.1 (by rw [e])
    simp only [hfib, e, if_false]; exact ⟨by simp, this.2⟩
  · exact h.qnodup
  · intro g c _ hg
    by_cases e : g = f
    · simp [hfib, e, Pend.conn] at hg
    · simp only [hfib, e, if_false] at hg; rw [hsame g c e hg]; exact h.busy g c (hne g e) hg
  · intro g g' c _ _ hg hg'
    by_cases e : g = f
    · simp [hfib, e, Pend.conn] at hg
    by_cases e' : g' = f
    · simp [hfib, e', Pend.conn] at hg'
    simp only [hfib, e, if_false] at hg; simp only [hfib, e', if_false] at hg'
    exact h.one g g' c (hne g e) (hne g' e') hg hg'
  · intro g c m _ hg
    by_cases e : g = f
    · simp [hfib, e] at hg
    · simp only [hfib, e, if_false] at hg; rw [hsame g c e (by rw [hg]; rfl)]; exact h.sdw g c m (hne g e) hg
  · exact ⟨h.mpend, h.answered⟩
  · intro g _
    by_cases e : g = f
    · subst e; simp [hfib, pendingCall, Pend.call]
    · simp only [hfib, e, if_false, pendingCall, Ne.symm e]; exact h.pend g (hne g e)
  · refine ⟨?_, h.truthful⟩
    rw [h.mview]; exact hj
  · intro g _
    by_cases e : g = f
    · simp only [hfib, e, if_true]; exact waits_idle _ _ _
    · simp only [hfib, e, if_false]
      exact (h.waits g (hne g e)).same fun c _ => view_ret g c f k r s.log
  · exact h.right
  · intro c k' l h1 h2
    rw [hh]
    rcases hC c with ⟨e, _⟩ | ⟨_, e | ⟨_, k0, l0, a1, a2, a3, e⟩⟩
    · exact h.flagH c k' l (by rw [← e]; exact h1) h2
    · rw [e] at h1; cases h1
    · rw [e] at h1; cases h1; cases h2; exact h.flagH c k0 l0 a1 a2
  · intro c k' l h1 h2
    rw [sdEnded]
    rcases hC c with ⟨e, e2⟩ | ⟨_, e | ⟨e3, k0, l0, a1, a2, a3, e⟩⟩
    · have a1 : s.conns c = some k' := by rw [← e]; exact h1
      have b1 := h.flagS c k' l a1 h2
      have b2 := h.flagH c k' l a1 h2
      rw [← b2, ← b1]
      cases hi : isSdRet c (.ret f k r)
      · rfl
      · cases hb : l.handshake
        · rfl
        · have := e2 hi k' l a1 h2 hb; rw [this]; rfl
    · rw [e] at h1; cases h1
    · rw [e] at h1; cases h1; cases h2
      rw [e3, ← h.flagH c k0 l0 a1 a2, a3]; rfl
  · intro c k' l h1 h2
    rcases hC c with ⟨e, _⟩ | ⟨_, e | ⟨_, k0, l0, a1, a2, a3, e⟩⟩
    · exact h.flagB c k' l (by rw [← e]; exact h1) h2
    · rw [e] at h1; cases h1
    · rw [e] at h1; cases h1; cases h2; exact h.flagB c k0 l0 a1 a2
  · intro c k' h1 h2
    rw [hh]
    rcases hC c with ⟨e, _⟩ | ⟨_, e | ⟨_, k0, l0, a1, a2, a3, e⟩⟩
    · exact h.noSsl c k' (by rw [← e]; exact h1) h2
    · rw [e] at h1; cases h1
    · rw [e] at h1; cases h1; cases h2
  · intro c hc; rw [hh]; exact h.fresh c hc
  · intro c hc
    rcases hC c with ⟨e, _⟩ | ⟨_, e | ⟨_, k0, l0, a1, a2, a3, e⟩⟩
    · exact h.connLt c (by rw [← e]; exact hc)
    · exact absurd e hc
    · exact h.connLt c (by simp [a1])

/-- the return of a call that is not a shutdown -/
theorem Mid.ret' (h : Mid f k v s) {r : Int} (hj : Just f k v r) (hk : ∀ c, isSdRet c (.ret f k r) = false) : LP none (s.ret f k r) :=
  h.ret hj s.conns (fun c => .inl ⟨rfl, by simp [hk c]⟩)

/-- a handshake begins -/
theorem LP.startHs (h : LP none s) (hi : s.fib f = .idle) {c : Nat} {k0 : Conn} {l0 : Ssl} (hc : s.conns c = some k0) (hl : k0.ssl = some l0) (hb : k0.bound = true)
    (hx : s.Free c) : Mid f (.handshake c) [] ((s.ev (.call f (.handshake c))).setConn c (some { k0 with ssl := some { l0 with handshake := true } })) := by
  have hfl : ∀ d, isHs d (.call f (.handshake c)) = (c == d) := by intro d; rfl
  have hq : ∀ x, (f, x) ∉ s.queue := fun x hx => by have := (h.queue f x hx).2; rw [hi] at this; simp at this
  have hfree := (free_iff h).mp hx
  have hlt := h.connLt c (by simp [hc])
  constructor
  · constructor <;> simp only [St.ev, St.setConn, upd_apply]
    · exact fun g _ => h.nfib g (by simp)
    · intro g x hx
      refine ⟨?_, (h.queue g x hx).2⟩
      rintro ⟨⟩
      exact hq x hx
    · exact h.qnodup
    · intro g d _ hd
      have := h.busy g d (by simp) hd
      split <;> simp [this]
    · exact fun g g' c _ _ => h.one g g' c (by simp) (by simp)
    · intro g d m _ hd
      have : d ≠ c := fun e => by subst e; exact hfree g (by rw [hd]; rfl)
      simp only [this, if_false]
      exact h.sdw g d m (by simp) hd
    · exact ⟨by rw [h.pend f (by simp), hi]; rfl, h.answered⟩
    · intro g hg
      have : f ≠ g := fun e => hg (by rw [e])
      simp only [pendingCall, this, if_false]
      exact h.pend g (by simp)
    · exact h.truthful
    · intro g hg
      have : f ≠ g := fun e => hg (by rw [e])
      exact (h.waits g (by simp)).same fun c _ => by simp [view, this]
    · exact h.right
    · intro d k l; rw [List.any_cons, hfl]
      split
      · next e => subst e; rintro ⟨⟩ ⟨⟩; simp
      · next e => intro h1 h2; have : (c == d) = false := by simpa using Ne.symm e
                  rw [this, Bool.false_or]; exact h.flagH d k l h1 h2
    · intro d k l; rw [sdEnded]; simp only [isSdRet, Bool.false_and, Bool.false_or]
      split
      · next e => subst e; rintro ⟨⟩ ⟨⟩; exact h.flagS d k0 l0 hc hl
      · exact h.flagS d k l
    · intro d k l
      split
      · next e => subst e; rintro ⟨⟩ ⟨⟩; exact fun _ => hb
      · exact h.flagB d k l
    · intro d k; rw [List.any_cons, hfl]
      split
      · next e => subst e; rintro ⟨⟩ ⟨⟩
      · next e => intro h1 h2; have : (c == d) = false := by simpa using Ne.symm e
                  rw [this, Bool.false_or]; exact h.noSsl d k h1 h2
    · intro d h1; rw [List.any_cons, hfl]
      have : (c == d) = false := by simp; omega
      rw [this, Bool.false_or]; exact h.fresh d h1
    · intro d
      split
      · next e => subst e; intro _; exact hlt
      · exact h.connLt d
  · simp [St.ev, St.setConn, pendingCall]
  · simp [St.ev, St.setConn, view]
  · intro g d _ hd
    simp only [Call.conn, Option.some.injEq] at hd
    subst hd
    exact hfree g

end

end Kasync.FNet
