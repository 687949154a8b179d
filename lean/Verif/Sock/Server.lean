import Verif.Sock.Props

/-!
# C54: listening of a server

For every number of selectors, every number of failures before and every answer of the kernel to every attempt.
-/

namespace Kasync.Sock

/-! ## Specification -/

/-- What a listener of a server has set: as `ksocket_listen`, and SO_REUSEPORT always. -/
def ServerOpt (b : Build) (flag : UInt32) (o : Opt) (v : Int) : Prop := ListenOpt b flag o v ∨ o = .reuseport ∧ v = 1

/-- `s` is a listening socket of a server at address `a`, opened by attempt `j`. -/
structure IsListener (b : Build) (env : Nat → Env) (flag : UInt32) (a : Addr) (j : Nat) (s : Sock) : Prop where
  fam : s.fam = a.fam
  stream : s.dgram = false
  listening : s.listening = true
  bound : s.bound = some a
  cloexec : s.cloexec = b.cloexec
  blocking : Blocking b (env j) s (flag &&& 64 = 0)
  opts : HasOpts (env j) s (ServerOpt b flag)

/-! ## The retries -/

/-- The attempts of one call end with attempt `k' - 1` in a world whose descriptors are those at the start; every attempt before it failed and was
counted. -/
theorem listenLoop_spec (b : Build) (env : Nat → Env) (a : Addr) (flag : UInt32) : ∀ (f : Nat) (w : World) (tries k : Nat), 11 - tries ≤ f →
    ∃ wj j, k ≤ j ∧ wj.fds = w.fds ∧ PathsKept w wj a ∧
      (listenLoop b env a flag w tries k).1 = (listen b (env j) wj a flag).1 ∧
      (listenLoop b env a flag w tries k).2.1 = (listen b (env j) wj a flag).2 ∧
      (listenLoop b env a flag w tries k).2.2.1 = tries + (j - k) ∧ (listenLoop b env a flag w tries k).2.2.2 = j + 1 ∧
      ((listenLoop b env a flag w tries k).2.1 = none → 10 < (listenLoop b env a flag w tries k).2.2.1) ∧ j - k ≤ 11 - tries := by
  intro f
  induction f with
  | zero =>
    intro w tries k hf
    refine ⟨w, k, Nat.le_refl _, rfl, fun p => Or.inl rfl, ?_⟩
    rw [listenLoop]
    cases hl : (listen b (env k) w a flag).2 with
    | some n => simp
    | none => rw [if_pos (by omega)]; simp; omega
  | succ f ih =>
    intro w tries k hf
    rw [listenLoop]
    cases hl : (listen b (env k) w a flag).2 with
    | some n => exact ⟨w, k, Nat.le_refl _, rfl, fun p => Or.inl rfl, by simp [hl]⟩
    | none =>
      simp only
      by_cases ht : 10 < tries
      · rw [if_pos ht]
        exact ⟨w, k, Nat.le_refl _, rfl, fun p => Or.inl rfl, by simp [hl, ht]⟩
      · rw [if_neg ht]
        obtain ⟨wj, j, h1, h2, hp, h3, h4, h5, h6, h7, h8⟩ := ih (listen b (env k) w a flag).1 (tries + 1) (k + 1) (by omega)
        refine ⟨wj, j, by omega, by rw [h2, listen_failed hl], ?_, h3, h4, by omega, h6, h7, by omega⟩
        intro p
        have q := listen_paths b (env k) w a flag p
        rcases hp p with hp | ⟨hu, he, hn⟩
        · rcases q with q | q
          · left; rw [hp, q]
          · exact Or.inr q
        · rcases q with q | q
          · right; rw [q] at hn; exact ⟨hu, he, hn⟩
          · exact Or.inr q

/-- **C54.** One listening call makes at most `12 - tries` attempts (one if more than 10 attempts failed before in this process), gives up only when
`kgl_failed_tries` has passed 10, leaves no descriptor behind then, and otherwise opens exactly one. -/
theorem listen_retries (b : Build) (env : Nat → Env) (a : Addr) (flag : UInt32) (w : World) (tries k : Nat) :
    let r := listenLoop b env a flag w tries k
    k < r.2.2.2 ∧ r.2.2.2 ≤ k + 1 + (11 - tries) ∧ r.2.2.1 = tries + (r.2.2.2 - k - 1) ∧
    (r.2.1 = none → 10 < r.2.2.1 ∧ r.1.fds = w.fds) ∧
    (∀ n, r.2.1 = some n → w.fds n = none ∧ (r.1.fds n).isSome = true ∧ ∀ m, m ≠ n → r.1.fds m = w.fds m) := by
  obtain ⟨wj, j, h1, h2, _, h3, h4, h5, h6, h7, h8⟩ := listenLoop_spec b env a flag _ w tries k (Nat.le_refl _)
  refine ⟨by omega, by omega, by omega, ?_, ?_⟩
  · intro hn
    refine ⟨h7 hn, ?_⟩
    rw [h4] at hn
    rw [h3, listen_failed hn, h2]
  · intro n hn
    rw [h4] at hn
    obtain ⟨s, ⟨o1, o2, o3⟩, _⟩ := listen_exact hn
    rw [h3, ← h2]
    exact ⟨o1, by rw [o2]; rfl, o3⟩

/-! ## All selectors -/

theorem listenOpt_or (b : Build) (flag : UInt32) (o : Opt) (v : Int) : ListenOpt b (flag ||| REUSEPORT) o v ↔ ServerOpt b flag o v := by
  have h8 := bit_or flag REUSEPORT (by decide)
  have h4 := bit_or_other flag ONLY_IPV6 REUSEPORT (by decide)
  have h32 := bit_or_other flag FASTOPEN REUSEPORT (by decide)
  have h16 := bit_or_other flag TPROXY REUSEPORT (by decide)
  have e8 := bit_iff (flag ||| REUSEPORT) REUSEPORT
  have e4 := bit_iff (flag ||| REUSEPORT) ONLY_IPV6
  have e32 := bit_iff (flag ||| REUSEPORT) FASTOPEN
  have e16 := bit_iff (flag ||| REUSEPORT) TPROXY
  have f4 := bit_iff flag ONLY_IPV6
  have f32 := bit_iff flag FASTOPEN
  have f16 := bit_iff flag TPROXY
  rw [h4] at e4; rw [h32] at e32; rw [h16] at e16; rw [h8] at e8
  simp only [ONLY_IPV6, FASTOPEN, TPROXY] at e4 e32 e16 f4 f32 f16
  unfold ServerOpt ListenOpt
  cases o <;> simp_all [REUSEPORT]

theorem block_or (flag : UInt32) : (flag ||| REUSEPORT) &&& 64 = 0 ↔ flag &&& 64 = 0 := by
  have := bit_or_other flag BLOCK REUSEPORT (by decide)
  rw [← block_iff, ← block_iff, this]

theorem or_or (flag : UInt32) : flag ||| REUSEPORT ||| REUSEPORT = flag ||| REUSEPORT := by
  apply UInt32.toBitVec_inj.mp
  simp only [UInt32.toBitVec_or]
  ext i hi; simp

/-- The invariant of the loop of `kserver_open` before selector `i`. -/
structure OInv (b : Build) (env : Nat → Env) (flag : UInt32) (w0 : World) (a0 : Addr) (t0 : Nat) (i : Nat) (o : Open) : Prop where
  sock : ∀ l ∈ o.ls, w0.fds l.fd = none ∧ ∃ j s, j < o.k ∧ o.w.fds l.fd = some s ∧ IsListener b env flag o.addr j s
  other : ∀ m, m ∉ o.ls.map Lis.fd → o.w.fds m = w0.fds m
  nodup : (o.ls.map Lis.fd).Nodup
  sel : (o.ls.map Lis.sel).Pairwise (· < ·)
  selLt : ∀ l ∈ o.ls, l.sel < i
  fam : o.addr.fam = a0.fam
  host : o.addr.host = a0.host
  same : a0.fam = .unix ∨ a0.port ≠ 0 ∨ o.ls = [] → o.addr = a0
  port : o.ls ≠ [] → a0.fam ≠ .unix → o.addr.port ≠ 0
  attempts : o.k ≤ i + (11 - t0) ∧ i ≤ o.k
  budget : o.tries + i = t0 + o.k
  gaveUp : o.ls.length < i → 10 < o.tries

theorem len_le : ∀ (l : List Lis) (i : Nat), (l.map Lis.sel).Pairwise (· < ·) → (∀ x ∈ l, x.sel < i) → l.length ≤ i := by
  have key : ∀ (l : List Lis) (lo i : Nat), (l.map Lis.sel).Pairwise (· < ·) → (∀ x ∈ l, lo ≤ x.sel ∧ x.sel < i) → lo ≤ i → lo + l.length ≤ i := by
    intro l
    induction l with
    | nil => intro lo i _ _ h; simpa using h
    | cons x l ih =>
      intro lo i hp hl _
      rw [List.map_cons, List.pairwise_cons] at hp
      have hx := hl x (by simp)
      have := ih (x.sel + 1) i hp.2 (fun y hy => ⟨hp.1 y.sel (List.mem_map_of_mem hy), (hl y (by simp [hy])).2⟩) (by omega)
      simp; omega
  intro l i hp hl
  have := key l 0 i hp (fun x hx => ⟨Nat.zero_le _, hl x hx⟩) (Nat.zero_le _)
  omega

theorem listenOn_inv {b : Build} {env : Nat → Env} {flag : UInt32} {w0 : World} {a0 : Addr} {t0 i : Nat} {o : Open} (h : OInv b env flag w0 a0 t0 i o) :
    OInv b env flag w0 a0 t0 (i + 1) (listenOn b env (flag ||| REUSEPORT) i o) := by
  unfold listenOn
  rw [or_or]
  obtain ⟨wj, j, h1, h2, _, h3, h4, h5, h6, h7, h8⟩ := listenLoop_spec b env o.addr (flag ||| REUSEPORT) _ o.w o.tries o.k (Nat.le_refl _)
  generalize hr : listenLoop b env o.addr (flag ||| REUSEPORT) o.w o.tries o.k = r at *
  have hbud := h.budget
  obtain ⟨hat, hik⟩ := h.attempts
  have hlen : o.ls.length ≤ i := by
    have := h.sel
    have h' := h.selLt
    exact len_le _ _ this h'
  obtain ⟨r1, r2, r3, r4⟩ := r
  simp only at h3 h4 h5 h6 h7 ⊢
  cases hn : r2 with
  | none =>
    simp only
    have hg := h7 hn
    rw [h4] at hn
    have hf : r1.fds = o.w.fds := by rw [h3, listen_failed hn, h2]
    refine ⟨?_, ?_, h.nodup, h.sel, ?_, h.fam, h.host, h.same, h.port, ?_, ?_, ?_⟩
    · intro l hl
      obtain ⟨q1, j', s, q2, q3, q4⟩ := h.sock l hl
      refine ⟨q1, j', s, ?_, ?_, q4⟩
      · simp only; omega
      · simp only; rw [hf]; exact q3
    · intro m hm; simp only; rw [hf]; exact h.other m hm
    · intro l hl; have := h.selLt l hl; omega
    · simp only; omega
    · simp only; omega
    · intro _; exact hg
  | some n =>
    simp only
    rw [h4] at hn
    obtain ⟨s, ⟨o1, o2, o3⟩, p1, p2, p3, p4, p5, p6, p7, ⟨a', p8, p9⟩, _⟩ := listen_exact hn
    rw [← h3] at o2 o3
    rw [h2] at o1 o3
    have hrb : readBack r1 o.addr n = a' := by
      unfold readBack
      rw [o2]
      simp only [Option.bind_some, p8, Option.getD_some]
      split
      · rfl
      · rename_i hh
        exact (p9.2.2.1 (Or.inr (by intro hp; exact hh (Or.inr hp)))).symm
    have hold : ∀ l ∈ o.ls, l.fd ≠ n := by
      intro l hl hc
      obtain ⟨_, _, s', _, q3, _⟩ := h.sock l hl
      rw [hc, o1] at q3; simp at q3
    have hsame : o.ls ≠ [] → a' = o.addr := by
      intro hne
      by_cases hu : a0.fam = .unix
      · exact p9.2.2.1 (Or.inl (by rw [h.fam, hu]))
      · exact p9.2.2.1 (Or.inr (h.port hne hu))
    have hl : IsListener b env flag a' j s := by
      refine ⟨by rw [p1, p9.1], p2, p3, p8, p5, ?_, ?_⟩
      · unfold Blocking at p6 ⊢; rw [p6, block_or]
      · intro q v; rw [p7 q v, listenOpt_or]
    refine ⟨?_, ?_, ?_, ?_, ?_, ?_, ?_, ?_, ?_, ?_, ?_, ?_⟩
    · intro l hm
      simp only [List.mem_append, List.mem_singleton] at hm
      simp only [hrb]
      rcases hm with hm | hm
      · obtain ⟨q1, j', s', q2, q3, q4⟩ := h.sock l hm
        refine ⟨q1, j', s', by omega, ?_, ?_⟩
        · rw [o3 l.fd (hold l hm)]; exact q3
        · rw [hsame (List.ne_nil_of_mem hm)]; exact q4
      · subst hm
        refine ⟨?_, j, s, by omega, o2, hl⟩
        have := h.other n (fun hc => by obtain ⟨l, hl', e⟩ := List.mem_map.mp hc; exact hold l hl' e)
        simp only
        rw [← this]; exact o1
    · intro m hm
      simp only [List.map_append, List.map_cons, List.map_nil, List.mem_append, List.mem_singleton, not_or] at hm
      simp only
      rw [o3 m hm.2]; exact h.other m hm.1
    · simp only [List.map_append, List.map_cons, List.map_nil]
      rw [List.nodup_append]
      refine ⟨h.nodup, by simp, ?_⟩
      intro x hx y hy
      simp only [List.mem_singleton] at hy
      obtain ⟨l, hl', e⟩ := List.mem_map.mp hx
      rw [hy, ← e]; exact hold l hl'
    · simp only [List.map_append, List.map_cons, List.map_nil]
      rw [List.pairwise_append]
      refine ⟨h.sel, by simp, ?_⟩
      intro x hx y hy
      simp only [List.mem_singleton] at hy
      obtain ⟨l, hl', e⟩ := List.mem_map.mp hx
      rw [hy, ← e]; exact h.selLt l hl'
    · intro l hm
      simp only [List.mem_append, List.mem_singleton] at hm
      rcases hm with hm | hm
      · have := h.selLt l hm; omega
      · subst hm; simp
    · simp only [hrb]; rw [p9.1, h.fam]
    · simp only [hrb]; rw [p9.2.1, h.host]
    · intro hc
      simp only [hrb]
      have hc' : a0.fam = .unix ∨ a0.port ≠ 0 := by
        rcases hc with hc | hc | hc
        · exact Or.inl hc
        · exact Or.inr hc
        · simp at hc
      have ha : o.addr = a0 := h.same (by rcases hc' with hc | hc; exact Or.inl hc; exact Or.inr (Or.inl hc))
      rw [← ha]
      apply p9.2.2.1
      rw [ha]; exact hc'
    · intro _ hu
      simp only [hrb]
      by_cases hp : o.addr.port = 0
      · rw [p9.2.2.2 (by rw [h.fam]; exact hu) hp]; omega
      · rw [p9.2.2.1 (Or.inr hp)]; exact hp
    · simp only; omega
    · simp only; omega
    · intro hlt
      simp only [List.length_append, List.length_cons, List.length_nil] at hlt
      have := h.gaveUp (by omega)
      simp only; omega

theorem openLoop_inv {b : Build} {env : Nat → Env} {flag : UInt32} {w0 : World} {a0 : Addr} {t0 : Nat} : ∀ (n i : Nat) (o : Open),
    OInv b env flag w0 a0 t0 i o → OInv b env flag w0 a0 t0 (i + n) (openLoop b env (flag ||| REUSEPORT) n i o) := by
  intro n
  induction n with
  | zero => intro i o h; exact h
  | succ n ih =>
    intro i o h
    have := ih (i + 1) _ (listenOn_inv h)
    rw [show i + 1 + n = i + (n + 1) by omega] at this
    exact this

theorem serverOpen_inv (b : Build) (env : Nat → Env) (flag : UInt32) (n : Nat) (w : World) (a : Addr) (tries : Nat) :
    OInv b env flag w a tries n (serverOpen b env flag n w a tries).1 := by
  have := openLoop_inv n 0 { w := w, addr := a, tries := tries, k := 0 }
    (show OInv b env flag w a tries 0 _ from ⟨by simp, by simp, by simp, by simp, by simp, rfl, rfl, by simp, by simp, by simp, by simp, by simp⟩)
  rw [Nat.zero_add] at this
  exact this

/-- **C54.** The listeners of a server that was opened: at most one per selector, in the order of the selectors; each has a descriptor of its own that was closed before and
is now a listening socket at the server's (one) address, with the options the flags ask for and SO_REUSEPORT.  No other descriptor changed: failed attempts leak nothing. -/
theorem server_listeners (b : Build) (env : Nat → Env) (flag : UInt32) (n : Nat) (w : World) (a : Addr) (tries : Nat) :
    let o := (serverOpen b env flag n w a tries).1
    (∀ l ∈ o.ls, l.sel < n ∧ w.fds l.fd = none ∧ ∃ j s, j < o.k ∧ o.w.fds l.fd = some s ∧ IsListener b env flag o.addr j s) ∧
    (o.ls.map Lis.sel).Pairwise (· < ·) ∧ (o.ls.map Lis.fd).Nodup ∧ ∀ m, m ∉ o.ls.map Lis.fd → o.w.fds m = w.fds m := by
  have h := serverOpen_inv b env flag n w a tries
  exact ⟨fun l hl => ⟨h.selLt l hl, h.sock l hl⟩, h.sel, h.nodup, h.other⟩

/-- **C54.** The address of an opened server is the one it was bound to; only port 0 is replaced, by one port which all listeners share. -/
theorem server_address (b : Build) (env : Nat → Env) (flag : UInt32) (n : Nat) (w : World) (a : Addr) (tries : Nat) :
    let r := serverOpen b env flag n w a tries
    r.1.addr.fam = a.fam ∧ r.1.addr.host = a.host ∧ (a.fam = .unix ∨ a.port ≠ 0 ∨ r.2 = false → r.1.addr = a) ∧ (r.2 = true → a.fam ≠ .unix → r.1.addr.port ≠ 0) := by
  have h := serverOpen_inv b env flag n w a tries
  have hr : (serverOpen b env flag n w a tries).2 = !(serverOpen b env flag n w a tries).1.ls.isEmpty := rfl
  refine ⟨h.fam, h.host, ?_, ?_⟩
  · intro hc
    apply h.same
    rcases hc with hc | hc | hc
    · exact Or.inl hc
    · exact Or.inr (Or.inl hc)
    · rw [hr] at hc; right; right; simpa using hc
  · intro hc; apply h.port; rw [hr] at hc; intro he; rw [he] at hc; simp at hc

/-- **C54.** `kserver_open` answers true exactly if there is a listener; it makes at most one attempt per selector and, over all selectors together, the retries left;
a selector is given up only when the retries are used up. -/
theorem server_attempts (b : Build) (env : Nat → Env) (flag : UInt32) (n : Nat) (w : World) (a : Addr) (tries : Nat) :
    let r := serverOpen b env flag n w a tries
    (r.2 = true ↔ r.1.ls ≠ []) ∧ n ≤ r.1.k ∧ r.1.k ≤ n + (11 - tries) ∧ r.1.tries + n = tries + r.1.k ∧ (r.1.ls.length < n → 10 < r.1.tries) := by
  have h := serverOpen_inv b env flag n w a tries
  refine ⟨?_, h.attempts.2, h.attempts.1, h.budget, h.gaveUp⟩
  show (!(serverOpen b env flag n w a tries).1.ls.isEmpty) = true ↔ _
  cases (serverOpen b env flag n w a tries).1.ls <;> simp

/-- The kernel refuses nothing: it has a descriptor of its own for every attempt. -/
structure Willing (env : Nat → Env) (w : World) : Prop where
  fd : ∀ j, ∃ m, (env j).fd = some m ∧ w.fds m = none
  inj : ∀ i j m, (env i).fd = some m → (env j).fd = some m → i = j
  bind : ∀ j, (env j).bind = true
  listen : ∀ j, (env j).listen = true

theorem listenOn_all {b : Build} {env : Nat → Env} {flag : UInt32} {w0 : World} {i : Nat} {o : Open} (hw : Willing env w0) (hu : o.addr.fam ≠ .unix)
    (hk : o.k = i) (hs : o.ls.map Lis.sel = List.range i) (hf : ∀ l ∈ o.ls, ∃ j, j < i ∧ (env j).fd = some l.fd)
    (ho : ∀ m, m ∉ o.ls.map Lis.fd → o.w.fds m = w0.fds m) :
    (listenOn b env flag i o).k = i + 1 ∧ (listenOn b env flag i o).ls.map Lis.sel = List.range (i + 1) ∧
    (∀ l ∈ (listenOn b env flag i o).ls, ∃ j, j < i + 1 ∧ (env j).fd = some l.fd) ∧
    (∀ m, m ∉ (listenOn b env flag i o).ls.map Lis.fd → (listenOn b env flag i o).w.fds m = w0.fds m) ∧ (listenOn b env flag i o).addr.fam ≠ .unix := by
  obtain ⟨m, hm, hm0⟩ := hw.fd i
  have hmo : o.w.fds m = none := by
    rw [ho m, hm0]
    intro hc
    obtain ⟨l, hl, e⟩ := List.mem_map.mp hc
    obtain ⟨j, hj, hj2⟩ := hf l hl
    rw [e] at hj2
    have := hw.inj i j m hm hj2
    omega
  have hnf : newFd (env i) o.w = some m := by unfold newFd; rw [hm]; simp [hmo]
  have hsome : (listen b (env i) o.w o.addr (flag ||| REUSEPORT)).2.isSome = true := by
    rw [listen_iff]
    exact ⟨by rw [hnf]; rfl, hw.bind i, hw.listen i, fun h => absurd h hu⟩
  obtain ⟨n, hn⟩ := Option.isSome_iff_exists.mp hsome
  have hnm : n = m := by
    obtain ⟨s, ⟨o1, o2, o3⟩, _⟩ := listen_exact hn
    rw [listen_unfold, hnf] at hn
    simp only at hn
    split at hn
    · simp at hn
    · split at hn <;> simp at hn
      exact hn.symm
  subst hnm
  obtain ⟨s, ⟨o1, o2, o3⟩, p1, _, _, _, _, _, _, ⟨a', p8, p9⟩, _⟩ := listen_exact hn
  have hloop : listenLoop b env o.addr (flag ||| REUSEPORT) o.w o.tries o.k =
      ((listen b (env i) o.w o.addr (flag ||| REUSEPORT)).1, some n, o.tries, i + 1) := by
    rw [listenLoop]; rw [hk]; simp only [hn]
  unfold listenOn
  rw [hloop]
  refine ⟨rfl, ?_, ?_, ?_, ?_⟩
  · simp only [List.map_append, List.map_cons, List.map_nil, hs]; rw [List.range_succ]
  · intro l hl
    simp only [List.mem_append, List.mem_singleton] at hl
    rcases hl with hl | hl
    · obtain ⟨j, hj, hj2⟩ := hf l hl; exact ⟨j, by omega, hj2⟩
    · subst hl; exact ⟨i, by omega, hm⟩
  · intro q hq
    simp only [List.map_append, List.map_cons, List.map_nil, List.mem_append, List.mem_singleton, not_or] at hq
    simp only
    rw [o3 q hq.2]; exact ho q hq.1
  · simp only [readBack, o2, Option.bind_some, p8, Option.getD_some]
    split
    · rw [p9.1]; exact hu
    · exact hu

/-- **C54.** If the kernel refuses nothing, `kserver_open` on an Internet address gives every selector its listener at the first attempt. -/
theorem server_all_selectors {b : Build} {env : Nat → Env} {flag : UInt32} {n : Nat} {w : World} {a : Addr} {tries : Nat} (hw : Willing env w) (hu : a.fam ≠ .unix) :
    (serverOpen b env flag n w a tries).1.ls.map Lis.sel = List.range n ∧ (serverOpen b env flag n w a tries).1.k = n := by
  have key : ∀ (n i : Nat) (o : Open), o.addr.fam ≠ .unix → o.k = i → o.ls.map Lis.sel = List.range i →
      (∀ l ∈ o.ls, ∃ j, j < i ∧ (env j).fd = some l.fd) → (∀ m, m ∉ o.ls.map Lis.fd → o.w.fds m = w.fds m) →
      (openLoop b env (flag ||| REUSEPORT) n i o).ls.map Lis.sel = List.range (i + n) ∧ (openLoop b env (flag ||| REUSEPORT) n i o).k = i + n := by
    intro n
    induction n with
    | zero => intro i o _ h1 h2 _ _; exact ⟨h2, h1⟩
    | succ n ih =>
      intro i o h0 h1 h2 h3 h4
      obtain ⟨g1, g2, g3, g4, g5⟩ := listenOn_all (b := b) (flag := flag ||| REUSEPORT) hw h0 h1 h2 h3 h4
      have := ih (i + 1) _ g5 g1 g2 g3 g4
      rw [show i + 1 + n = i + (n + 1) by omega] at this
      exact this
  have := key n 0 { w := w, addr := a, tries := tries, k := 0 } hu rfl rfl (by simp) (by simp)
  rw [Nat.zero_add] at this
  exact this

/-! ## The hypotheses are met -/

/-- A kernel that answers with descriptor `n` and refuses nothing. -/
def good (n : Nat) : Env :=
  { fd := some n, opt := fun _ => true, nb := true, stat := true, unlink := true, bind := true, listen := true, conn := .ok, port := 8079, poll := true, from_ := ⟨.inet, 9, 999⟩ }

/-- Linux without transparent proxying. -/
def linux : Build := ⟨true, false⟩

example : Willing (fun j => good (j + 3)) {} :=
  ⟨fun j => ⟨j + 3, rfl, rfl⟩, fun i j m h1 h2 => by simp [good] at h1 h2; omega, fun _ => rfl, fun _ => rfl⟩

/-- What is compared in the examples. -/
structure Obs where
  ls : List (Nat × Nat)
  addr : Addr
  k : Nat
  tries : Nat
  ok : Bool
  deriving DecidableEq

/-- Observes an opened server. -/
def obs (r : Open × Bool) : Obs := ⟨r.1.ls.map (fun l => (l.sel, l.fd)), r.1.addr, r.1.k, r.1.tries, r.2⟩

/-- Three selectors, port 0: the first two attempts fail, then all three listen on the port the kernel chose for the first. -/
example : obs (serverOpen linux (fun j => if j < 2 then { good 3 with bind := false } else good (j + 3)) 0 3 {} ⟨.inet, 7, 0⟩ 0) =
    ⟨[(0, 5), (1, 6), (2, 7)], ⟨.inet, 7, 8080⟩, 5, 2, true⟩ := by decide +kernel

/-- `listen_exact` is met, with a flag and an option the kernel refuses. -/
example : (listen linux { good 4 with opt := fun o => o != .fastopen } {} ⟨.inet, 7, 80⟩ 40).1.fds 4 =
    some { id := 0, fam := .inet, dgram := false, cloexec := true, nonblock := true, opts := [(.reuseaddr, 1), (.reuseport, 1)], bound := some ⟨.inet, 7, 80⟩, listening := true } := by
  decide +kernel

/-- `half_exact`, `connect_exact` and `accept_exact` are met by sockets on their way, connected and accepted. -/
example : ((halfConnect ⟨true, true⟩ { good 4 with conn := .inprogress } {} ⟨.inet, 7, 80⟩ (some ⟨.inet, 1, 0⟩) 5).1.fds 4).map (fun s => (s.opts, s.peer)) =
    some ([(.transparent, 1), (.mark, 5)], .connecting ⟨.inet, 7, 80⟩) := by decide +kernel

example : (match connect linux (good 4) {} ⟨.inet, 7, 80⟩ none 3 with | .ok (_, r) => r | _ => none) = some 4 := by decide +kernel

example : ((accept linux (good 5) {} { id := 0, fam := .inet, dgram := false } true).1.fds 5).map Sock.peer = some (.connected ⟨.inet, 9, 999⟩) := by decide +kernel

/-! ## Findings -/

/-- **Finding (C54).** A server on a Unix path with two selectors: each `ksocket_listen` removes the socket of the one before, so the first listener is open and listening but the
path no longer leads to it; only the last selector ever gets connections. -/
theorem unix_server_only_last_reachable :
    (serverOpen linux (fun j => good (j + 3)) 0 2 {} ⟨.unix, 1, 0⟩ 0).2 = true ∧
    (serverOpen linux (fun j => good (j + 3)) 0 2 {} ⟨.unix, 1, 0⟩ 0).1.ls.map Lis.fd = [3, 4] ∧
    ((serverOpen linux (fun j => good (j + 3)) 0 2 {} ⟨.unix, 1, 0⟩ 0).1.w.fds 3).map Sock.id = some 0 ∧
    (serverOpen linux (fun j => good (j + 3)) 0 2 {} ⟨.unix, 1, 0⟩ 0).1.w.nodes 1 = .sock 1 := by decide +kernel

/-- **Finding (C54).** `ksocket_listen` on a path removes the socket of a server that is running there, and if `bind` then fails the path is gone. -/
theorem unix_listen_removes_live_socket (b : Build) (e : Env) (w : World) (p id : Nat) (flag : UInt32) (hp : w.nodes p = .sock id) (hs : e.stat = true) (hu : e.unlink = true)
    (hb : e.bind = false) : (listen b e w ⟨.unix, p, 0⟩ flag).2 = none ∧ (listen b e w ⟨.unix, p, 0⟩ flag).1.nodes p = .absent := by
  have hc : (clearPath e w ⟨.unix, p, 0⟩).nodes p = .absent := by unfold clearPath; simp [hp, hs, hu, World.node]
  rw [listen_unfold]
  cases newFd e w with
  | none => exact ⟨rfl, hc⟩
  | some n =>
    have : bindTo e { clearPath e w ⟨.unix, p, 0⟩ with next := w.next + 1 } ⟨.unix, p, 0⟩ = none := by rw [bindTo_none]; exact Or.inl hb
    simp only [this]
    exact ⟨trivial, hc⟩

/-- **Finding (C54).** A connection accepted on a Unix path: `kconnection_new` copies `sizeof(struct sockaddr_un)` (110) bytes from an address of `sizeof(sockaddr_i)` (28)
followed by 4 more bytes of the listener, that is beyond its end. -/
theorem unix_accept_reads_beyond (p fd : Nat) : connNew 110 28 32 ⟨.unix, p, 0⟩ fd = .ub := rfl

/-- **C54.** For Internet addresses the copy stays inside an object that has room for an address, even without the bytes that follow. -/
theorem inet_accept_in_bounds (un sai avail : Nat) (a : Addr) (fd : Nat) (h : a.fam ≠ .unix) (hs : sai ≤ avail) :
    connNew un sai avail a fd = .ok { fd := some fd, addr := a } := by
  unfold connNew; rw [if_neg h, if_neg (by omega)]

example : connNew 110 28 28 ⟨.inet, 5, 80⟩ 3 = .ok { fd := some 3, addr := ⟨.inet, 5, 80⟩ } := rfl

/-- **Finding (C54).** Without SOCK_CLOEXEC (macOS) no descriptor kasync opens is closed on exec: the only statement of `kfile_close_on_exec` is commented out. -/
theorem no_cloexec_leaks {b : Build} {e : Env} {w : World} {a : Addr} {flag : UInt32} {n : Nat} (hb : b.cloexec = false) (h : (listen b e w a flag).2 = some n) :
    ∃ s, (listen b e w a flag).1.fds n = some s ∧ s.cloexec = false := by
  obtain ⟨s, ⟨_, o2, _⟩, _, _, _, _, p, _⟩ := listen_exact h
  exact ⟨s, o2, by rw [p, hb]⟩

/-- **Finding (C54).** `kconnection_half_connect` on a connection that has a descriptor (a second attempt with the same object) overwrites it: the old descriptor stays open
and nothing names it any more. -/
theorem reconnect_leaks (b : Build) (e : Env) (w : World) (c : Conn) (n : Nat) (s : Sock) (bindA : Option Addr) (mask : Int) (hw : w.fds n = some s) :
    let r := connHalf b e w c bindA mask
    r.2.fd ≠ some n ∧ r.1.fds n = some s ∧ (connDestroy r.1 r.2).fds n = some s := by
  obtain ⟨_, h⟩ := connHalf_exact b e w c bindA mask
  rcases h with ⟨h1, h2⟩ | ⟨m, t, h1, ⟨o1, o2, o3⟩, _⟩
  · refine ⟨by rw [h1]; simp, by rw [h2]; exact hw, ?_⟩
    unfold connDestroy; rw [h1]; simp only; rw [h2]; exact hw
  · have hne : n ≠ m := by intro h; rw [h, o1] at hw; simp at hw
    refine ⟨by rw [h1]; simp; omega, by rw [o3 n hne]; exact hw, ?_⟩
    unfold connDestroy; rw [h1]; simp only; rw [put_fds, if_neg hne, o3 n hne]; exact hw

/-- **Finding (C54).** `kgl_failed_tries` is never reset: after 11 failed attempts in the life of the process every later listening call makes a single attempt. -/
theorem retries_used_up (b : Build) (env : Nat → Env) (a : Addr) (flag : UInt32) (w : World) (tries k : Nat) (h : 11 ≤ tries) :
    (listenLoop b env a flag w tries k).2.2.2 = k + 1 := by
  have := listen_retries b env a flag w tries k
  simp only at this
  omega

/-- **Finding (C54).** The timeout of `ksocket_connect` does not bound connecting: `connect` is called on a blocking socket, and only then the (already connected) socket is
polled; for a timeout above 2147483 seconds the multiplication overflows. -/
theorem connect_timeout_overflow : connect linux (good 4) {} ⟨.inet, 7, 80⟩ none 2147484 = .ub := rfl

end Kasync.Sock
