import Verif.Uring.Inv

/-! # The invariant of the io_uring selector is kept -/

namespace Kasync.Uring

theorem Just.mono {s s' : St} {p : Nat × Int} (h : Just s p) (h1 : ∀ x ∈ s.own, x ∈ s'.own) (h2 : ∀ x ∈ s.done, x ∈ s'.done) :
    Just s' p := by
  rcases h with h | h | ⟨w, h, e⟩ | ⟨b, w, v, h, h', e⟩
  · exact .inl (h1 _ h)
  · exact .inr (.inl (h2 _ h))
  · exact .inr (.inr (.inl ⟨w, h2 _ h, e⟩))
  · exact .inr (.inr (.inr ⟨b, w, v, h2 _ h, h2 _ h', e⟩))

theorem Inv.idle {s : St} {p : Option Nat} (h : Inv s p) {k : Key} (hf : (s.slots k).flag = false) :
    Uring.cnt s k = 0 := by
  rw [h.cnt k]; simp [busy, hf]

/-- a change of a slot that has no request -/
theorem inv_quiet {s : St} {p : Option Nat} (h : Inv s p) (k : Key) (sl : Slot) (hf : (s.slots k).flag = false) (hf' : sl.flag = false)
    (hr : s.usepoll k.1 = false → sl.ready = false) (hn : ∀ i sf, s.sfs i = some sf → (sf.file, Dir.w) ≠ k) : Inv (setSlot s k sl) p := by
  have hz := fun t => no_op (h.idle hf) t
  have hl : (setSlot s k sl).live = s.live := rfl
  obtain ⟨hd, sane, hcnt, tags, rdy, nur, cbU, cbF, cbS, cbN, sfi, sfu, pipe, ansN, ansL, fresh, tot, just⟩ := h
  constructor <;> try (simp only [setSlot]; assumption)
  case cnt =>
    intro k'
    rw [show cnt (setSlot s k sl) k' = cnt s k' from rfl, hcnt k']
    simp only [busy, setSlot, upd]
    grind
  case tags =>
    intro k' t ht
    rw [hl] at ht
    have : k' ≠ k := by rintro rfl; exact hz t ht
    simpa only [Tagged, setSlot, upd_ne _ _ this] using tags k' t ht
  case sfi =>
    intro i sf hs
    have h1 := sfi i sf hs
    have h2 := hn i sf hs
    obtain ⟨a1, a2, a3, a4, a5, a6, a7, a8, a9, a10, a11, a12⟩ := h1
    constructor <;> (try simp only [setSlot]) <;> try assumption
    all_goals simp only [upd]; grind
  case rdy => simp only [setSlot, upd]; grind
  case nur => simp only [setSlot, upd]; grind
  case cbU => clear * - cbU hf hf'; simp only [setSlot, upd]; grind
  case cbF => clear * - cbF hf hf'; simp only [setSlot, upd]; grind
  case cbS => clear * - cbS hf hf'; simp only [setSlot, upd]; grind
  case cbN => clear * - cbN hf hf'; simp only [setSlot, upd]; grind
  case fresh => clear * - fresh hf hf'; simp only [setSlot, upd]; grind
  case tot =>
    intro i hi
    rcases tot i hi with h | h | ⟨k', h, h'⟩ | h
    · exact .inl h
    · exact .inr (.inl h)
    · refine .inr (.inr (.inl ⟨k', ?_, ?_⟩)) <;> simp only [setSlot, upd] <;> grind
    · exact .inr (.inr (.inr h))

/-- a new request -/
theorem inv_new {s : St} (h : Inv s none) : Inv { s with next := s.next + 1 } (some s.next) := by
  have hl : ({ s with next := s.next + 1 } : St).live = s.live := rfl
  obtain ⟨hd, sane, hcnt, tags, rdy, nur, cbU, cbF, cbS, cbN, sfi, sfu, pipe, ansN, ansL, fresh, tot, just⟩ := h
  constructor <;> try assumption
  case cbU => clear * - cbU; grind
  case sfi =>
    intro i sf hs
    obtain ⟨a1, a2, a3, a4, a5, a6, a7, a8, a9, a10, a11, a12⟩ := sfi i sf hs
    constructor <;> try assumption
    · exact Nat.lt_succ_of_lt a1
    · rw [a10]
      constructor
      · rintro (h | h)
        · exact .inl h
        · cases h
      · rintro (h | h)
        · exact .inl h
        · cases h; omega
  case ansL => intro i hi; exact Nat.lt_succ_of_lt (ansL i hi)
  case fresh =>
    intro i hi
    cases hi
    refine ⟨Nat.lt_succ_self _, fun hm => Nat.lt_irrefl _ (ansL _ hm), fun k hk hc => ?_, fun sf hs => ?_⟩
    · exact Nat.lt_irrefl _ (cbU k _ hk hc).1
    · exact absurd (sfi _ sf hs).lt (Nat.lt_irrefl _)
  case tot =>
    intro i hi
    by_cases he : i = s.next
    · exact .inr (.inl (by rw [he]))
    · rcases tot i (by simp only at hi; omega) with h | h | h | h
      · exact .inl h
      · cases h
      · exact .inr (.inr (.inl h))
      · exact .inr (.inr (.inr h))

/-- the callback of the request being handled is called -/
theorem inv_ans {s s' : St} {id : Nat} {v : Int} (h : Inv s (some id)) (ha : s'.ans = s.ans ++ [(id, v)])
    (hj : Just s' (id, v)) (e : s' = { s with ans := s'.ans, own := s'.own }) (ho : ∀ x ∈ s.own, x ∈ s'.own) : Inv s' none := by
  have hm : ∀ i, i ∈ s'.ans.map (·.1) ↔ i ∈ s.ans.map (·.1) ∨ some id = some i := by
    intro i; rw [ha]; simp [eq_comm]
  have hl : s'.live = s.live := by rw [e]; rfl
  have hs : s'.slots = s.slots := by rw [e]
  have hu : s'.usepoll = s.usepoll := by rw [e]
  have hsf : s'.sfs = s.sfs := by rw [e]
  have hpi : s'.pipes = s.pipes := by rw [e]
  have hnx : s'.next = s.next := by rw [e]
  have hdn : s'.done = s.done := by rw [e]
  have hhd : s'.head = s.head := by rw [e]
  have hhi : s'.hist = s.hist := by rw [e]
  clear e
  obtain ⟨hd, sane, hcnt, tags, rdy, nur, cbU, cbF, cbS, cbN, sfi, sfu, pipe, ansN, ansL, fresh, tot, just⟩ := h
  constructor
  · rw [hhd, hhi]; exact hd
  · rw [hl]; exact sane
  · intro k; rw [show cnt s' k = cnt s k by rw [cnt, hl, cnt], show busy s' k = busy s k by rw [busy, hs, hu, busy]]; exact hcnt k
  · intro k t ht; rw [hl] at ht; simpa only [Tagged, hs, hu] using tags k t ht
  · rw [hs, hu]; exact rdy
  · rw [hs, hu]; exact nur
  · rw [hs, hsf, hnx]
    intro k i h1 h2
    obtain ⟨a, b, c, d⟩ := cbU k i h1 h2
    refine ⟨a, ?_, c, d⟩
    rw [hm]
    rintro (h | h)
    · exact b h
    · cases h; exact (fresh id rfl).2.2.1 k h1 h2
  · rw [hs, hsf]; exact cbF
  · rw [hs, hsf]; exact cbS
  · rw [hs]; exact cbN
  · intro i sf hi
    rw [hsf] at hi
    obtain ⟨a1, a2, a3, a4, a5, a6, a7, a8, a9, a10, a11, a12⟩ := sfi i sf hi
    constructor <;> (try simp only [hs, hu, hnx, hdn]) <;> try assumption
    rw [a10, hm]; simp
  · rw [hsf]; exact sfu
  · rw [hsf, hpi]; exact pipe
  · rw [ha, List.map_append]
    refine List.nodup_append.2 ⟨ansN, by simp, ?_⟩
    intro a h1 b h2 e
    simp only [List.map_cons, List.map_nil, List.mem_singleton] at h2
    exact (fresh id rfl).2.1 (by rw [← h2, ← e]; exact h1)
  · intro i hi
    rw [hnx]
    rcases (hm i).1 hi with h | h
    · exact ansL i h
    · cases h; exact (fresh id rfl).1
  · intro i hi; cases hi
  · intro i hi
    rw [hm, hs, hsf]
    rw [hnx] at hi
    rcases tot i hi with h | h | h | h
    · exact .inl (.inl h)
    · exact .inl (.inr h)
    · exact .inr (.inr (.inl h))
    · exact .inr (.inr (.inr h))
  · intro q hq
    rw [ha] at hq
    rcases List.mem_append.1 hq with h | h
    · exact (just q h).mono ho (by rw [hdn]; exact fun x hx => hx)
    · rw [List.mem_singleton.1 h]; exact hj

theorem inv_own {s : St} {id : Nat} (v : Int) (h : Inv s (some id)) : Inv (answerOwn s id v) none := by
  refine inv_ans (id := id) (v := v) h rfl ?_ rfl ?_
  · exact .inl (by simp [answerOwn])
  · intro x hx; simp [answerOwn, hx]

/-- a request starts; its entry is prepared, or the slot is ready -/
theorem inv_start {s s' : St} {id : Nat} {k : Key} {sl : Slot} (h : Inv s (some id)) (hsf : s.sfs id = none)
    (hf : (s.slots k).flag = false) (hn : ∀ i sf, s.sfs i = some sf → (sf.file, Dir.w) ≠ k)
    (h1 : sl.flag = true) (h2 : sl.cb = .user id) (h3 : sl.st = k.1)
    (h5 : s.usepoll k.1 = false → sl.ready = false)
    (hl : (sl.ready = true ∧ s'.live.Perm s.live) ∨
      (sl.ready = false ∧ ∃ b, s'.live.Perm (.op k ⟨id, b⟩ :: s.live) ∧ (b = .data ∧ sl.nullb = false ∨ b = .poll ∧ sl.nullb = !s.usepoll k.1)))
    (hs : s'.slots = upd s.slots k sl) (hu : s'.usepoll = s.usepoll) (hsf' : s'.sfs = s.sfs) (hpi : s'.pipes = s.pipes) (hnx : s'.next = s.next)
    (hdn : s'.done = s.done) (han : s'.ans = s.ans) (hown : s'.own = s.own) (hhd : s'.head ≤ s'.hist.length) : Inv s' none := by
  have h0 := h.idle hf
  have hz := fun t => no_op h0 t
  have hup : s.usepoll k.1 = true ∨ sl.ready = false := by cases hc : s.usepoll k.1 <;> simp_all
  obtain ⟨hd, sane, hcnt, tags, rdy, nur, cbU, cbF, cbS, cbN, sfi, sfu, pipe, ansN, ansL, fresh, tot, just⟩ := h
  have hfr := fresh id rfl
  constructor
  case hd => exact hhd
  case sane =>
    rcases hl with ⟨_, hp⟩ | ⟨_, b, hp, _⟩
    · rw [hp.mem_iff]; exact sane
    · rw [hp.mem_iff]; simp [sane]
  case cnt =>
    intro k'
    have hb : busy s' k' = if k' = k then !(s.usepoll k.1 && sl.ready) else busy s k' := by
      simp only [busy, hs, hu, upd]; split
      · simp_all
      · rfl
    rw [hb]
    rcases hl with ⟨hr, hp⟩ | ⟨hr, b, hp, _⟩
    · have : cnt s' k' = cnt s k' := hp.countP_eq _
      rw [this]
      by_cases hk : k' = k
      · subst hk; simp only [if_pos rfl, hr]; rw [h0]; simp [hr] at hup; simp [hup]
      · rw [if_neg hk]; exact hcnt k'
    · rw [cnt_cons hp k']
      by_cases hk : k' = k
      · subst hk; simp [Sqe.on, hr, h0]
      · rw [if_neg hk, hcnt k']; simp [Sqe.on, Ne.symm hk]
  case tags =>
    intro k' t ht
    have key : (k' ≠ k ∧ .op k' t ∈ s.live) ∨ (k' = k ∧ ∃ b, t = ⟨id, b⟩ ∧ (b = .data ∧ sl.nullb = false ∨ b = .poll ∧ sl.nullb = !s.usepoll k.1)) := by
      rcases hl with ⟨hr, hp⟩ | ⟨hr, b, hp, hb⟩
      · rw [hp.mem_iff] at ht
        exact .inl ⟨by rintro rfl; exact hz t ht, ht⟩
      · rw [hp.mem_iff, List.mem_cons] at ht
        rcases ht with ht | ht
        · cases ht; exact .inr ⟨rfl, b, rfl, hb⟩
        · exact .inl ⟨by rintro rfl; exact hz t ht, ht⟩
    rcases key with ⟨hk, ht⟩ | ⟨rfl, b, rfl, hb⟩
    · simpa only [Tagged, hs, hu, upd_ne _ _ hk] using tags k' t ht
    · simp only [Tagged, hs, hu, upd_same]
      rcases hb with ⟨rfl, hb⟩ | ⟨rfl, hb⟩ <;> exact ⟨h3, h2, hb⟩
  case rdy => clear * - rdy hs hu h2; rw [hs, hu]; simp only [upd]; grind
  case nur => clear * - nur hs hu h5; rw [hs, hu]; simp only [upd]; grind
  case cbU =>
    clear * - cbU hs hsf hsf' hnx han hfr h1 h2
    rw [hs, hsf', hnx, han]; simp only [upd]; grind
  case cbF => clear * - cbF hs hsf' h1 h2; rw [hs, hsf']; simp only [upd]; grind
  case cbS => clear * - cbS hs hsf' h1 h2; rw [hs, hsf']; simp only [upd]; grind
  case cbN => clear * - cbN hs h1 h2; rw [hs]; simp only [upd]; grind
  case sfi =>
    intro i sf hi
    rw [hsf'] at hi
    have hk := hn i sf hi
    obtain ⟨a1, a2, a3, a4, a5, a6, a7, a8, a9, a10, a11, a12⟩ := sfi i sf hi
    have hii : i ≠ id := by rintro rfl; rw [hsf] at hi; cases hi
    constructor <;> (try simp only [hs, hu, hnx, hdn, han]) <;> try assumption
    · clear * - a4 hf; simp only [upd]; grind
    · clear * - a5 hf; simp only [upd]; grind
    · clear * - a6 hk; simp only [upd]; grind
    · rw [a10]; constructor
      · rintro (h | h)
        · exact .inl h
        · cases h; exact absurd rfl hii
      · rintro (h | h)
        · exact .inl h
        · cases h
  case sfu => rw [hsf']; exact sfu
  case pipe => rw [hsf', hpi]; exact pipe
  case ansN => rw [han]; exact ansN
  case ansL => rw [han, hnx]; exact ansL
  case fresh => intro i hi; cases hi
  case tot =>
    intro i hi
    rw [hnx] at hi
    rw [han, hs, hsf']
    rcases tot i hi with h | h | ⟨k', h, h'⟩ | h
    · exact .inl h
    · cases h; exact .inr (.inr (.inl ⟨k, by rw [upd_same]; exact h1, by rw [upd_same]; exact h2⟩))
    · have : k' ≠ k := by rintro rfl; simp [hf] at h
      exact .inr (.inr (.inl ⟨k', by rw [upd_ne _ _ this]; exact h, by rw [upd_ne _ _ this]; exact h'⟩))
    · exact .inr (.inr (.inr h))
  case just =>
    intro q hq
    rw [han] at hq
    exact (just q hq).mono (by rw [hown]; exact fun x hx => hx) (by rw [hdn]; exact fun x hx => hx)

/-- a request of a slot ends -/
theorem inv_finish {s s' : St} {id : Nat} {k : Key} {sl : Slot} (h : Inv s none)
    (hf : (s.slots k).flag = true) (hc : (s.slots k).cb = .user id) (h1 : sl.flag = false)
    (h5 : s.usepoll k.1 = false → sl.ready = false)
    (hl : (s.usepoll k.1 = true ∧ (s.slots k).ready = true ∧ s'.live.Perm s.live) ∨ (∃ t, s.live.Perm (.op k t :: s'.live)))
    (hs : s'.slots = upd s.slots k sl) (hu : s'.usepoll = s.usepoll) (hsf' : s'.sfs = s.sfs) (hpi : s'.pipes = s.pipes) (hnx : s'.next = s.next)
    (hdn : ∀ x ∈ s.done, x ∈ s'.done) (han : s'.ans = s.ans) (hown : s'.own = s.own) (hhd : s'.head ≤ s'.hist.length) : Inv s' (some id) := by
  obtain ⟨hd, sane, hcnt, tags, rdy, nur, cbU, cbF, cbS, cbN, sfi, sfu, pipe, ansN, ansL, fresh, tot, just⟩ := h
  have hcu := cbU k id hf hc
  have hc0 : cnt s' k = 0 := by
    rcases hl with ⟨hup, hr, hp⟩ | ⟨t, hp⟩
    · rw [show cnt s' k = cnt s k from hp.countP_eq _, hcnt k]; simp [busy, hup, hr]
    · have := cnt_cons hp k
      have h2 := hcnt k
      have h3 : (if busy s k = true then 1 else 0) ≤ 1 := by split <;> omega
      simp [Sqe.on] at this
      omega
  have hsub : ∀ q ∈ s'.live, q ∈ s.live := by
    rcases hl with ⟨hup, hr, hp⟩ | ⟨t, hp⟩
    · intro q hq; exact hp.mem_iff.1 hq
    · intro q hq; exact hp.mem_iff.2 (List.mem_cons_of_mem _ hq)
  have hco : ∀ k', k' ≠ k → cnt s' k' = cnt s k' := by
    intro k' hk
    rcases hl with ⟨hup, hr, hp⟩ | ⟨t, hp⟩
    · exact hp.countP_eq _
    · have := cnt_cons hp k'; simp [Sqe.on, Ne.symm hk] at this; exact this.symm
  constructor
  case hd => exact hhd
  case sane => exact fun h => sane (hsub _ h)
  case cnt =>
    intro k'
    by_cases hk : k' = k
    · subst hk; rw [hc0]; simp [busy, hs, upd_same, h1]
    · rw [hco k' hk, hcnt k', show busy s' k' = busy s k' by simp only [busy, hs, hu, upd_ne _ _ hk]]
  case tags =>
    intro k' t ht
    have hk : k' ≠ k := by rintro rfl; exact no_op hc0 t ht
    simpa only [Tagged, hs, hu, upd_ne _ _ hk] using tags k' t (hsub _ ht)
  case rdy => clear * - rdy hs hu h1; rw [hs, hu]; simp only [upd]; grind
  case nur => clear * - nur hs hu h5; rw [hs, hu]; simp only [upd]; grind
  case cbU => clear * - cbU hs hsf' hnx han h1; rw [hs, hsf', hnx, han]; simp only [upd]; grind
  case cbF => clear * - cbF hs hsf' h1; rw [hs, hsf']; simp only [upd]; grind
  case cbS => clear * - cbS hs hsf' h1; rw [hs, hsf']; simp only [upd]; grind
  case cbN => clear * - cbN hs h1; rw [hs]; simp only [upd]; grind
  case sfi =>
    intro i sf hi
    rw [hsf'] at hi
    obtain ⟨a1, a2, a3, a4, a5, a6, a7, a8, a9, a10, a11, a12⟩ := sfi i sf hi
    have hii : i ≠ id := by rintro rfl; rw [hcu.2.2.1] at hi; cases hi
    constructor <;> (try simp only [hs, hu, hnx, han]) <;> try assumption
    · clear * - a4 hc; simp only [upd]; grind
    · clear * - a5 hc; simp only [upd]; grind
    · clear * - a6 hf; simp only [upd]; grind
    · rw [a10]; constructor
      · rintro (h | h)
        · exact .inl h
        · cases h
      · rintro (h | h)
        · exact .inl h
        · cases h; exact absurd rfl hii
    · intro h0; obtain ⟨b, w, hm, he⟩ := a11 h0; exact ⟨b, w, hdn _ hm, he⟩
    · intro h0; obtain ⟨v, hm⟩ := a12 h0; exact ⟨v, hdn _ hm⟩
  case sfu => rw [hsf']; exact sfu
  case pipe => rw [hsf', hpi]; exact pipe
  case ansN => rw [han]; exact ansN
  case ansL => rw [han, hnx]; exact ansL
  case fresh =>
    intro i hi
    cases hi
    rw [hnx, han, hs, hsf']
    refine ⟨hcu.1, hcu.2.1, ?_, ?_⟩
    · intro k' h h'
      by_cases hk : k' = k
      · subst hk; rw [upd_same, h1] at h; cases h
      · rw [upd_ne _ _ hk] at h h'; exact hk (hcu.2.2.2 k' h h')
    · intro sf hh; rw [hcu.2.2.1] at hh; cases hh
  case tot =>
    intro i hi
    rw [hnx] at hi
    rw [han, hs, hsf']
    rcases tot i hi with h | h | ⟨k', h, h'⟩ | h
    · exact .inl h
    · cases h
    · by_cases hk : k' = k
      · subst hk; rw [hc] at h'; cases h'; exact .inr (.inl rfl)
      · exact .inr (.inr (.inl ⟨k', by rw [upd_ne _ _ hk]; exact h, by rw [upd_ne _ _ hk]; exact h'⟩))
    · exact .inr (.inr (.inr h))
  case just =>
    intro q hq
    rw [han] at hq
    exact (just q hq).mono (by rw [hown]; exact fun x hx => hx) hdn

/-- an entry without a slot goes -/
theorem inv_drop {s s' : St} {q : Sqe} (h : Inv s none) (hq : ∀ k, q.on k = false) (hl : s.live.Perm (q :: s'.live))
    (hs : s'.slots = s.slots) (hu : s'.usepoll = s.usepoll) (hsf : s'.sfs = s.sfs) (hpi : s'.pipes = s.pipes) (hnx : s'.next = s.next)
    (hdn : s'.done = s.done) (han : s'.ans = s.ans) (hown : s'.own = s.own) (hhd : s'.head ≤ s'.hist.length) : Inv s' none := by
  have hsub : ∀ q ∈ s'.live, q ∈ s.live := fun q hq => hl.mem_iff.2 (List.mem_cons_of_mem _ hq)
  obtain ⟨hd, sane, hcnt, tags, rdy, nur, cbU, cbF, cbS, cbN, sfi, sfu, pipe, ansN, ansL, fresh, tot, just⟩ := h
  constructor
  case hd => exact hhd
  case sane => exact fun h => sane (hsub _ h)
  case cnt =>
    intro k
    have := cnt_cons hl k
    rw [hq k] at this
    simp at this
    rw [← this, hcnt k, show busy s' k = busy s k by simp only [busy, hs, hu]]
  case tags => intro k t ht; simpa only [Tagged, hs, hu] using tags k t (hsub _ ht)
  case sfi =>
    intro i sf hi
    rw [hsf] at hi
    obtain ⟨a1, a2, a3, a4, a5, a6, a7, a8, a9, a10, a11, a12⟩ := sfi i sf hi
    constructor <;> (try simp only [hs, hu, hnx, hdn, han]) <;> assumption
  case just =>
    intro q hq
    rw [han] at hq
    exact (just q hq).mono (by rw [hown]; exact fun x hx => hx) (by rw [hdn]; exact fun x hx => hx)
  all_goals (try simp only [hs, hu, hsf, hpi, hnx, hdn, han]) <;> assumption

/-- the slots of the two halves of a sendfile -/
def Half (s : St) (id : Nat) (sf : Sf) (k : Key) : Prop :=
  ((s.slots k).cb = .sfFile id ∧ k = (sf.file, .r) ∧ sf.p1 = true) ∨
  ((s.slots k).cb = .sfSock id ∧ k = (sf.st, .w) ∧ sf.p0 = true ∧ sf.skip = false)

/-- the last half of a sendfile ends: the record goes -/
theorem inv_last {s s' : St} {id : Nat} {sf : Sf} {k : Key} {sl : Slot} {t : Tag} (h : Inv s none) (hi : s.sfs id = some sf)
    (hf : (s.slots k).flag = true) (hh : Half s id sf k) (hr : sf.refs = 1)
    (h1 : sl.flag = false) (h5 : sl.ready = false) (hl : s.live.Perm (.op k t :: s'.live))
    (hs : s'.slots = upd s.slots k sl) (hu : s'.usepoll = s.usepoll) (hsf : s'.sfs = upd s.sfs id none)
    (hpi : s'.pipes = upd s.pipes id (false, false)) (hnx : s'.next = s.next)
    (hdn : ∀ x ∈ s.done, x ∈ s'.done) (han : s'.ans = s.ans) (hown : s'.own = s.own) (hhd : s'.head ≤ s'.hist.length) :
    Inv s' (if sf.skip = true then none else some id) := by
  obtain ⟨hd, sane, hcnt, tags, rdy, nur, cbU, cbF, cbS, cbN, sfi, sfu, pipe, ansN, ansL, fresh, tot, just⟩ := h
  have hok := sfi id sf hi
  have hup : s.usepoll k.1 = false := by
    rcases hh with ⟨_, rfl, _⟩ | ⟨_, rfl, _⟩
    · exact hok.uf
    · exact hok.us
  have hc0 : cnt s' k = 0 := by
    have := cnt_cons hl k
    have h2 := hcnt k
    have h3 : (if busy s k = true then 1 else 0) ≤ 1 := by split <;> omega
    simp [Sqe.on] at this
    omega
  have hsub : ∀ q ∈ s'.live, q ∈ s.live := fun q hq => hl.mem_iff.2 (List.mem_cons_of_mem _ hq)
  have hco : ∀ k', k' ≠ k → cnt s' k' = cnt s k' := by
    intro k' hk
    have := cnt_cons hl k'; simp [Sqe.on, Ne.symm hk] at this; exact this.symm
  have hF : ∀ k' , k' ≠ k → (s.slots k').flag = true → (s.slots k').cb ≠ .sfFile id := by
    intro k' hk h2 h3
    obtain ⟨sf', e1, e2, e3⟩ := cbF k' id h2 h3
    rw [hi] at e1; cases e1
    rcases hh with ⟨_, e4, _⟩ | ⟨_, e4, e5, e6⟩
    · exact hk (e2.trans e4.symm)
    · have := hok.refs; simp [e3, e5, e6] at this; omega
  have hS : ∀ k' , k' ≠ k → (s.slots k').flag = true → (s.slots k').cb ≠ .sfSock id := by
    intro k' hk h2 h3
    obtain ⟨sf', e1, e2, e3, e3'⟩ := cbS k' id h2 h3
    rw [hi] at e1; cases e1
    rcases hh with ⟨_, e4, e5⟩ | ⟨_, e4, e5, e6⟩
    · have := hok.refs; simp [e3, e5, e3'] at this; omega
    · exact hk (e2.trans e4.symm)
  have hU : ∀ k', (s.slots k').flag = true → (s.slots k').cb ≠ .user id := by
    intro k' h2 h3; have := (cbU k' id h2 h3).2.2.1; rw [hi] at this; cases this
  have hans := hok.ans
  constructor
  case hd => exact hhd
  case sane => exact fun h => sane (hsub _ h)
  case cnt =>
    intro k'
    by_cases hk : k' = k
    · subst hk; rw [hc0]; simp [busy, hs, upd_same, h1]
    · rw [hco k' hk, hcnt k', show busy s' k' = busy s k' by simp only [busy, hs, hu, upd_ne _ _ hk]]
  case tags =>
    intro k' t ht
    have hk : k' ≠ k := by rintro rfl; exact no_op hc0 t ht
    simpa only [Tagged, hs, hu, upd_ne _ _ hk] using tags k' t (hsub _ ht)
  case rdy => clear * - rdy hs hu h1; rw [hs, hu]; simp only [upd]; grind
  case nur => clear * - nur hs hu h5; rw [hs, hu]; simp only [upd]; grind
  case cbU => clear * - cbU hs hsf hnx han h1; rw [hs, hsf, hnx, han]; simp only [upd]; grind
  case cbF => clear * - cbF hs hsf h1 hF; rw [hs, hsf]; simp only [upd]; grind
  case cbS => clear * - cbS hs hsf h1 hS; rw [hs, hsf]; simp only [upd]; grind
  case cbN => clear * - cbN hs h1; rw [hs]; simp only [upd]; grind
  case sfi =>
    intro i sf' hi'
    have hii : i ≠ id := by rintro rfl; rw [hsf, upd_same] at hi'; cases hi'
    rw [hsf, upd_ne _ _ hii] at hi'
    have hcb : (s.slots k).cb ≠ .sfFile i ∧ (s.slots k).cb ≠ .sfSock i := by
      rcases hh with ⟨e, _⟩ | ⟨e, _⟩ <;> rw [e] <;> simp <;> exact fun h => hii h.symm
    obtain ⟨a1, a2, a3, a4, a5, a6, a7, a8, a9, a10, a11, a12⟩ := sfi i sf' hi'
    constructor <;> (try simp only [hs, hu, hnx, han]) <;> try assumption
    · clear * - a4 hcb; simp only [upd]; grind
    · clear * - a5 hcb; simp only [upd]; grind
    · clear * - a6 hf; simp only [upd]; grind
    · rw [a10]; constructor
      · rintro (h | h)
        · exact .inl h
        · cases h
      · rintro (h | h)
        · exact .inl h
        · split at h
          · cases h
          · cases h; exact absurd rfl hii
    · intro h0; obtain ⟨b, w, hm, he⟩ := a11 h0; exact ⟨b, w, hdn _ hm, he⟩
    · intro h0; obtain ⟨v, hm⟩ := a12 h0; exact ⟨v, hdn _ hm⟩
  case sfu => clear * - sfu hsf; rw [hsf]; simp only [upd]; grind
  case pipe => clear * - pipe hsf hpi; intro i; rw [hsf, hpi]; simp only [upd]; grind
  case ansN => rw [han]; exact ansN
  case ansL => rw [han, hnx]; exact ansL
  case fresh =>
    intro i hii
    split at hii
    · cases hii
    · rename_i hsk
      cases hii
      rw [hnx, han, hs, hsf]
      refine ⟨hok.lt, fun hm => hsk (hans.2 (.inl hm)), ?_, ?_⟩
      · intro k' h h'
        by_cases hk : k' = k
        · subst hk; rw [upd_same, h1] at h; cases h
        · rw [upd_ne _ _ hk] at h h'; exact hU k' h h'
      · intro sf hh; rw [upd_same] at hh; cases hh
  case tot =>
    intro i hi'
    rw [hnx] at hi'
    rw [han, hs, hsf]
    rcases tot i hi' with h | h | ⟨k', h, h'⟩ | ⟨sf', h, h'⟩
    · exact .inl h
    · cases h
    · have hk : k' ≠ k := by
        rintro rfl
        rcases hh with ⟨e, _⟩ | ⟨e, _⟩ <;> rw [e] at h' <;> cases h'
      exact .inr (.inr (.inl ⟨k', by rw [upd_ne _ _ hk]; exact h, by rw [upd_ne _ _ hk]; exact h'⟩))
    · by_cases hii : i = id
      · subst hii; rw [hi] at h; cases h; simp [h']
      · exact .inr (.inr (.inr ⟨sf', by rw [upd_ne _ _ hii]; exact h, h'⟩))
  case just =>
    intro q hq
    rw [han] at hq
    exact (just q hq).mono (by rw [hown]; exact fun x hx => hx) hdn

/-- one half of a sendfile ends and the other is out -/
theorem inv_half {s s' : St} {id : Nat} {sf sf' : Sf} {k : Key} {sl : Slot} {t : Tag} (h : Inv s none) (hi : s.sfs id = some sf)
    (hf : (s.slots k).flag = true) (hr : sf.refs = 2)
    (hh : ((s.slots k).cb = .sfFile id ∧ k = (sf.file, .r) ∧ sf' = { sf with p1 := false, refs := 1 } ∧ ∃ v, (⟨id, .sfFile⟩, v) ∈ s'.done) ∨
      ((s.slots k).cb = .sfSock id ∧ k = (sf.st, .w) ∧ (∃ g, sf' = { sf with p0 := false, refs := 1, got := g } ∧
        ∃ b w, (⟨id, .sfSock b⟩, w) ∈ s'.done ∧ g = if w > 0 ∧ b = true then 0 else w)))
    (h1 : sl.flag = false) (h5 : sl.ready = false) (hl : s.live.Perm (.op k t :: s'.live))
    (hs : s'.slots = upd s.slots k sl) (hu : s'.usepoll = s.usepoll) (hsf : s'.sfs = upd s.sfs id (some sf'))
    (hpi : s'.pipes = upd s.pipes id (sf'.p0, sf'.p1)) (hnx : s'.next = s.next)
    (hdn : ∀ x ∈ s.done, x ∈ s'.done) (han : s'.ans = s.ans) (hown : s'.own = s.own) (hhd : s'.head ≤ s'.hist.length) :
    Inv s' none := by
  obtain ⟨hd, sane, hcnt, tags, rdy, nur, cbU, cbF, cbS, cbN, sfi, sfu, pipe, ansN, ansL, fresh, tot, just⟩ := h
  have hok := sfi id sf hi
  have hall : sf.p1 = true ∧ sf.p0 = true ∧ sf.skip = false := by
    have := hok.refs
    rw [hr] at this
    clear * - this
    grind
  have hc0 : cnt s' k = 0 := by
    have := cnt_cons hl k
    have h2 := hcnt k
    have h3 : (if busy s k = true then 1 else 0) ≤ 1 := by split <;> omega
    simp [Sqe.on] at this
    omega
  have hsub : ∀ q ∈ s'.live, q ∈ s.live := fun q hq => hl.mem_iff.2 (List.mem_cons_of_mem _ hq)
  have hco : ∀ k', k' ≠ k → cnt s' k' = cnt s k' := by
    intro k' hk
    have := cnt_cons hl k'; simp [Sqe.on, Ne.symm hk] at this; exact this.symm
  have hk2 : (sf.file, Dir.r) ≠ (sf.st, Dir.w) := by simp
  have hsfe : sf'.st = sf.st ∧ sf'.file = sf.file ∧ sf'.skip = sf.skip ∧ sf'.refs = 1 := by
    rcases hh with ⟨_, _, rfl, _⟩ | ⟨_, _, g, rfl, _⟩ <;> exact ⟨rfl, rfl, rfl, rfl⟩
  have hans := hok.ans
  constructor
  case hd => exact hhd
  case sane => exact fun h => sane (hsub _ h)
  case cnt =>
    intro k'
    by_cases hk : k' = k
    · subst hk; rw [hc0]; simp [busy, hs, upd_same, h1]
    · rw [hco k' hk, hcnt k', show busy s' k' = busy s k' by simp only [busy, hs, hu, upd_ne _ _ hk]]
  case tags =>
    intro k' t ht
    have hk : k' ≠ k := by rintro rfl; exact no_op hc0 t ht
    simpa only [Tagged, hs, hu, upd_ne _ _ hk] using tags k' t (hsub _ ht)
  case rdy => clear * - rdy hs hu h1; rw [hs, hu]; simp only [upd]; grind
  case nur => clear * - nur hs hu h5; rw [hs, hu]; simp only [upd]; grind
  case cbU =>
    rw [hs, hsf, hnx, han]
    intro k' i h2 h3
    by_cases hk : k' = k
    · subst hk; rw [upd_same, h1] at h2; cases h2
    · rw [upd_ne _ _ hk] at h2 h3
      obtain ⟨b1, b2, b3, b4⟩ := cbU k' i h2 h3
      have hii : i ≠ id := by rintro rfl; rw [hi] at b3; cases b3
      refine ⟨b1, b2, by rw [upd_ne _ _ hii]; exact b3, ?_⟩
      intro k'' h4 h5
      by_cases hk' : k'' = k
      · subst hk'; rw [upd_same, h1] at h4; cases h4
      · rw [upd_ne _ _ hk'] at h4 h5; exact b4 k'' h4 h5
  case cbF =>
    rw [hs, hsf]
    intro k' i h2 h3
    by_cases hk : k' = k
    · subst hk; rw [upd_same, h1] at h2; cases h2
    · rw [upd_ne _ _ hk] at h2 h3
      obtain ⟨sf2, b1, b2, b3⟩ := cbF k' i h2 h3
      by_cases hii : i = id
      · subst hii
        rw [hi] at b1; cases b1
        refine ⟨sf', by rw [upd_same], ?_, ?_⟩
        · rw [hsfe.2.1]; exact b2
        · rcases hh with ⟨_, e, _⟩ | ⟨_, _, g, rfl, _⟩
          · exact absurd (b2.trans e.symm) hk
          · exact b3
      · exact ⟨sf2, by rw [upd_ne _ _ hii]; exact b1, b2, b3⟩
  case cbS =>
    rw [hs, hsf]
    intro k' i h2 h3
    by_cases hk : k' = k
    · subst hk; rw [upd_same, h1] at h2; cases h2
    · rw [upd_ne _ _ hk] at h2 h3
      obtain ⟨sf2, b1, b2, b3, b4⟩ := cbS k' i h2 h3
      by_cases hii : i = id
      · subst hii
        rw [hi] at b1; cases b1
        refine ⟨sf', by rw [upd_same], ?_, ?_, ?_⟩
        · rw [hsfe.1]; exact b2
        · rcases hh with ⟨_, _, rfl, _⟩ | ⟨_, e, _⟩
          · exact b3
          · exact absurd (b2.trans e.symm) hk
        · rw [hsfe.2.2.1]; exact b4
      · exact ⟨sf2, by rw [upd_ne _ _ hii]; exact b1, b2, b3, b4⟩
  case cbN => clear * - cbN hs h1; rw [hs]; simp only [upd]; grind
  case sfi =>
    intro i sf2 hi'
    by_cases hii : i = id
    · subst hii
      rw [hsf, upd_same] at hi'
      cases hi'
      obtain ⟨a1, a2, a3, a4, a5, a6, a7, a8, a9, a10, a11, a12⟩ := hok
      rcases hh with ⟨e1, e2, rfl, e4⟩ | ⟨e1, e2, g, rfl, e4⟩
      · constructor <;> (try simp only [hs, hu, hnx, han]) <;> (try assumption)
        · simp
        · rw [e2]; simp only [upd]; simpa using a5
        · rw [e2]; simp only [upd]; simpa using a6
        · simp [hall]
        · simp
        · intro hc; rw [hall.2.2] at hc; cases hc
        · intro hc; rw [hall.2.1] at hc; cases hc
        · intro _; exact e4
      · constructor <;> (try simp only [hs, hu, hnx, han]) <;> (try assumption)
        · rw [e2]; simp only [upd]; simpa using a4
        · simp
        · rw [e2] at hf
          have : (sf.file, Dir.w) ≠ (sf.st, Dir.w) := by
            intro h; rw [h] at a6; rw [a6.1] at hf; cases hf
          rw [e2]; simp only [upd, this, if_false]; exact a6
        · simp [hall]
        · simp
        · intro hc; rw [hall.2.2] at hc; cases hc
        · intro _; exact e4
        · intro hc; rw [hall.1] at hc; cases hc
    · rw [hsf, upd_ne _ _ hii] at hi'
      have hcb : (s.slots k).cb ≠ .sfFile i ∧ (s.slots k).cb ≠ .sfSock i := by
        rcases hh with ⟨e, _⟩ | ⟨e, _⟩ <;> rw [e] <;> simp <;> exact fun h => hii h.symm
      obtain ⟨a1, a2, a3, a4, a5, a6, a7, a8, a9, a10, a11, a12⟩ := sfi i sf2 hi'
      constructor <;> (try simp only [hs, hu, hnx, han]) <;> try assumption
      · clear * - a4 hcb; simp only [upd]; grind
      · clear * - a5 hcb; simp only [upd]; grind
      · clear * - a6 hf; simp only [upd]; grind
      · intro h0; obtain ⟨b, w, hm, he⟩ := a11 h0; exact ⟨b, w, hdn _ hm, he⟩
      · intro h0; obtain ⟨v, hm⟩ := a12 h0; exact ⟨v, hdn _ hm⟩
  case sfu =>
    rw [hsf]
    have e := hsfe.2.1
    clear * - sfu hi e; simp only [upd]; grind
  case pipe => clear * - pipe hsf hpi; intro i; rw [hsf, hpi]; simp only [upd]; grind
  case ansN => rw [han]; exact ansN
  case ansL => rw [han, hnx]; exact ansL
  case fresh => intro i hi; cases hi
  case tot =>
    intro i hi'
    rw [hnx] at hi'
    rw [han, hs, hsf]
    rcases tot i hi' with h | h | ⟨k', h, h'⟩ | ⟨sf2, h, h'⟩
    · exact .inl h
    · cases h
    · have hk : k' ≠ k := by
        rintro rfl
        rcases hh with ⟨e, _⟩ | ⟨e, _⟩ <;> rw [e] at h' <;> cases h'
      exact .inr (.inr (.inl ⟨k', by rw [upd_ne _ _ hk]; exact h, by rw [upd_ne _ _ hk]; exact h'⟩))
    · by_cases hii : i = id
      · subst hii; exact .inr (.inr (.inr ⟨sf', by rw [upd_same], by rw [hsfe.2.2.1]; exact hall.2.2⟩))
      · exact .inr (.inr (.inr ⟨sf2, by rw [upd_ne _ _ hii]; exact h, h'⟩))
  case just =>
    intro q hq
    rw [han] at hq
    exact (just q hq).mono (by rw [hown]; exact fun x hx => hx) hdn

end Kasync.Uring
