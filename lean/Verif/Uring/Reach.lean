import Verif.Uring.Steps

/-! # The invariant of the io_uring selector holds in every reachable state -/

namespace Kasync.Uring

/-- the first half of a sendfile starts -/
theorem inv_sf1 {s s' : St} {id c f : Nat} {slw slr : Slot} (h : Inv s (some id)) (hsf : s.sfs id = none)
    (hcf : c ≠ f) (hcu : s.usepoll c = false) (hfu : s.usepoll f = false)
    (hfr : (s.slots (f, .r)).flag = false) (hfw : (s.slots (f, .w)).flag = false)
    (hn : ∀ i sf, s.sfs i = some sf → sf.file ≠ c ∧ sf.file ≠ f)
    (hw1 : slw.flag = false) (hw2 : slw.cb = .user id) (hw3 : slw.ready = false)
    (hr1 : slr.flag = true) (hr2 : slr.cb = .sfFile id) (hr3 : slr.ready = false) (hr4 : slr.st = f)
    (hl : s'.live.Perm (.op (f, .r) ⟨id, .sfFile⟩ :: s.live))
    (hs : s'.slots = upd (upd s.slots (f, .w) slw) (f, .r) slr) (hu : s'.usepoll = s.usepoll)
    (hsf' : s'.sfs = upd s.sfs id (some { st := c, file := f, skip := true }))
    (hpi : s'.pipes = upd s.pipes id (true, true)) (hnx : s'.next = s.next)
    (hdn : s'.done = s.done) (han : s'.ans = s.ans) (hown : s'.own = s.own) (hhd : s'.head ≤ s'.hist.length) : Inv s' (some id) := by
  have h0r := h.idle hfr
  have h0w := h.idle hfw
  obtain ⟨hd, sane, hcnt, tags, rdy, nur, cbU, cbF, cbS, cbN, sfi, sfu, pipe, ansN, ansL, fresh, tot, just⟩ := h
  have hfresh := fresh id rfl
  have hsr : s'.slots (f, .r) = slr := by rw [hs, upd_same]
  have hsw : s'.slots (f, .w) = slw := by rw [hs, upd_ne _ _ (by simp), upd_same]
  have hso : ∀ k, k ≠ (f, .r) → k ≠ (f, .w) → s'.slots k = s.slots k := by
    intro k h1 h2; rw [hs, upd_ne _ _ h1, upd_ne _ _ h2]
  have hfl : ∀ k, (s'.slots k).flag = true → k = (f, .r) ∨ (k ≠ (f, .r) ∧ s'.slots k = s.slots k ∧ (s.slots k).flag = true) := by
    intro k hk
    by_cases h1 : k = (f, .r)
    · exact .inl h1
    · have h2 : k ≠ (f, .w) := by rintro rfl; rw [hsw, hw1] at hk; cases hk
      rw [hso k h1 h2] at hk ⊢; exact .inr ⟨h1, rfl, hk⟩
  have hfl' : ∀ k, (s.slots k).flag = true → k ≠ (f, .r) ∧ k ≠ (f, .w) ∧ s'.slots k = s.slots k := by
    intro k hk
    have h1 : k ≠ (f, .r) := by rintro rfl; rw [hfr] at hk; cases hk
    have h2 : k ≠ (f, .w) := by rintro rfl; rw [hfw] at hk; cases hk
    exact ⟨h1, h2, hso k h1 h2⟩
  clear hs
  constructor
  case hd => exact hhd
  case sane => rw [hl.mem_iff]; simp [sane]
  case cnt =>
    intro k
    rw [cnt_cons hl k]
    by_cases h1 : k = (f, .r)
    · subst h1; simp [Sqe.on, h0r, busy, hsr, hr1, hr3]
    · by_cases h2 : k = (f, .w)
      · subst h2; simp [Sqe.on, h0w, busy, hsw, hw1]
      · rw [hcnt k, show busy s' k = busy s k by simp only [busy, hu, hso k h1 h2]]
        simp [Sqe.on, Ne.symm h1]
  case tags =>
    intro k t ht
    rw [hl.mem_iff, List.mem_cons] at ht
    rcases ht with ht | ht
    · cases ht; simp only [Tagged, hsr]; exact ⟨hr4, hr2⟩
    · have h1 : k ≠ (f, .r) := by rintro rfl; exact no_op h0r t ht
      have h2 : k ≠ (f, .w) := by rintro rfl; exact no_op h0w t ht
      simpa only [Tagged, hu, hso k h1 h2] using tags k t ht
  case rdy =>
    intro k hk hp
    rw [hu] at hp
    rcases hfl k hk with rfl | ⟨_, e, hk'⟩
    · rw [hfu] at hp; cases hp
    · rw [e]; exact rdy k hk' hp
  case nur =>
    intro k hp
    rw [hu] at hp
    by_cases h1 : k = (f, .r)
    · subst h1; rw [hsr]; exact hr3
    · by_cases h2 : k = (f, .w)
      · subst h2; rw [hsw]; exact hw3
      · rw [hso k h1 h2]; exact nur k hp
  case cbU =>
    intro k i h1 h2
    rcases hfl k h1 with rfl | ⟨_, e, hk'⟩
    · rw [hsr, hr2] at h2; cases h2
    · rw [e] at h2
      obtain ⟨b1, b2, b3, b4⟩ := cbU k i hk' h2
      have hii : i ≠ id := by rintro rfl; exact hfresh.2.2.1 k hk' h2
      rw [hnx, han, hsf', upd_ne _ _ hii]
      refine ⟨b1, b2, b3, ?_⟩
      intro k2 h3 h4
      rcases hfl k2 h3 with rfl | ⟨_, e2, hk2⟩
      · rw [hsr, hr2] at h4; cases h4
      · rw [e2] at h4; exact b4 k2 hk2 h4
  case cbF =>
    intro k i h1 h2
    rcases hfl k h1 with rfl | ⟨_, e, hk'⟩
    · rw [hsr, hr2] at h2; cases h2
      exact ⟨_, by rw [hsf', upd_same], rfl, rfl⟩
    · rw [e] at h2
      obtain ⟨sf, b1, b2⟩ := cbF k i hk' h2
      have hii : i ≠ id := by rintro rfl; rw [hsf] at b1; cases b1
      exact ⟨sf, by rw [hsf', upd_ne _ _ hii]; exact b1, b2⟩
  case cbS =>
    intro k i h1 h2
    rcases hfl k h1 with rfl | ⟨_, e, hk'⟩
    · rw [hsr, hr2] at h2; cases h2
    · rw [e] at h2
      obtain ⟨sf, b1, b2⟩ := cbS k i hk' h2
      have hii : i ≠ id := by rintro rfl; rw [hsf] at b1; cases b1
      exact ⟨sf, by rw [hsf', upd_ne _ _ hii]; exact b1, b2⟩
  case cbN =>
    intro k h1
    rcases hfl k h1 with rfl | ⟨_, e, hk'⟩
    · rw [hsr, hr2]; simp
    · rw [e]; exact cbN k hk'
  case sfi =>
    intro i sf hi
    by_cases hii : i = id
    · subst hii
      rw [hsf', upd_same] at hi
      cases hi
      constructor
      · rw [hnx]; exact hfresh.1
      · rw [hu]; exact hfu
      · rw [hu]; exact hcu
      · intro _; rw [hsr]; exact ⟨hr1, hr2⟩
      · intro _ hc; simp at hc
      · rw [hsw]; exact ⟨hw1, hw2⟩
      · simp
      · simp
      · intro _; exact ⟨rfl, rfl⟩
      · simp
      · intro hc; simp at hc
      · intro hc; simp at hc
    · rw [hsf', upd_ne _ _ hii] at hi
      have hne := hn i sf hi
      obtain ⟨a1, a2, a3, a4, a5, a6, a7, a8, a9, a10, a11, a12⟩ := sfi i sf hi
      constructor <;> (try simp only [hu, hnx, hdn, han]) <;> try assumption
      · intro hp; obtain ⟨b1, b2⟩ := a4 hp; rw [(hfl' _ b1).2.2]; exact ⟨b1, b2⟩
      · intro hp hq; obtain ⟨b1, b2⟩ := a5 hp hq; rw [(hfl' _ b1).2.2]; exact ⟨b1, b2⟩
      · rw [hso _ (by simp) (by simp [hne.2])]; exact a6
  case sfu => clear * - sfu hsf' hn; rw [hsf']; simp only [upd]; grind
  case pipe => clear * - pipe hsf' hpi; intro i; rw [hsf', hpi]; simp only [upd]; grind
  case ansN => rw [han]; exact ansN
  case ansL => rw [han, hnx]; exact ansL
  case fresh =>
    intro i hi
    cases hi
    rw [hnx, han, hsf', upd_same]
    refine ⟨hfresh.1, hfresh.2.1, ?_, ?_⟩
    · intro k h1
      rcases hfl k h1 with rfl | ⟨_, e, hk'⟩
      · rw [hsr, hr2]; simp
      · rw [e]; exact hfresh.2.2.1 k hk'
    · intro sf hh; cases hh; rfl
  case tot =>
    intro i hi
    rw [hnx] at hi
    rw [han, hsf']
    rcases tot i hi with h | h | ⟨k', h, h'⟩ | ⟨sf, h, h'⟩
    · exact .inl h
    · exact .inr (.inl h)
    · exact .inr (.inr (.inl ⟨k', by rw [(hfl' _ h).2.2]; exact h, by rw [(hfl' _ h).2.2]; exact h'⟩))
    · have hii : i ≠ id := by rintro rfl; rw [hsf] at h; cases h
      exact .inr (.inr (.inr ⟨sf, by rw [upd_ne _ _ hii]; exact h, h'⟩))
  case just =>
    intro q hq
    rw [han] at hq
    exact (just q hq).mono (by rw [hown]; exact fun x hx => hx) (by rw [hdn]; exact fun x hx => hx)

/-- the second half of a sendfile starts -/
theorem inv_sf2 {s s' : St} {id c f : Nat} {slw : Slot} {b : Bool} (h : Inv s (some id))
    (hsf : s.sfs id = some { st := c, file := f, skip := true })
    (hcf : c ≠ f) (hfw : (s.slots (c, .w)).flag = false)
    (hn : ∀ i sf, s.sfs i = some sf → sf.file ≠ c)
    (hr1 : slw.flag = true) (hr2 : slw.cb = .sfSock id) (hr3 : slw.ready = false) (hr4 : slw.st = c) (hr5 : slw.nullb = b)
    (hl : s'.live.Perm (.op (c, .w) ⟨id, .sfSock b⟩ :: s.live))
    (hs : s'.slots = upd s.slots (c, .w) slw) (hu : s'.usepoll = s.usepoll)
    (hsf' : s'.sfs = upd s.sfs id (some { st := c, file := f, refs := 2 }))
    (hpi : s'.pipes = s.pipes) (hnx : s'.next = s.next)
    (hdn : s'.done = s.done) (han : s'.ans = s.ans) (hown : s'.own = s.own) (hhd : s'.head ≤ s'.hist.length) : Inv s' none := by
  have h0 := h.idle hfw
  obtain ⟨hd, sane, hcnt, tags, rdy, nur, cbU, cbF, cbS, cbN, sfi, sfu, pipe, ansN, ansL, fresh, tot, just⟩ := h
  have hfresh := fresh id rfl
  have hok := sfi id _ hsf
  have hsw : s'.slots (c, .w) = slw := by rw [hs, upd_same]
  have hso : ∀ k, k ≠ (c, .w) → s'.slots k = s.slots k := by intro k h1; rw [hs, upd_ne _ _ h1]
  have hfl : ∀ k, (s'.slots k).flag = true → k = (c, .w) ∨ (k ≠ (c, .w) ∧ s'.slots k = s.slots k ∧ (s.slots k).flag = true) := by
    intro k hk
    by_cases h1 : k = (c, .w)
    · exact .inl h1
    · rw [hso k h1] at hk ⊢; exact .inr ⟨h1, rfl, hk⟩
  have hfl' : ∀ k, (s.slots k).flag = true → k ≠ (c, .w) ∧ s'.slots k = s.slots k := by
    intro k hk
    have h1 : k ≠ (c, .w) := by rintro rfl; rw [hfw] at hk; cases hk
    exact ⟨h1, hso k h1⟩
  clear hs
  constructor
  case hd => exact hhd
  case sane => rw [hl.mem_iff]; simp [sane]
  case cnt =>
    intro k
    rw [cnt_cons hl k]
    by_cases h1 : k = (c, .w)
    · subst h1; simp [Sqe.on, h0, busy, hsw, hr1, hr3]
    · rw [hcnt k, show busy s' k = busy s k by simp only [busy, hu, hso k h1]]
      simp [Sqe.on, Ne.symm h1]
  case tags =>
    intro k t ht
    rw [hl.mem_iff, List.mem_cons] at ht
    rcases ht with ht | ht
    · cases ht; simp only [Tagged, hsw]; exact ⟨hr4, hr2, hr5⟩
    · have h1 : k ≠ (c, .w) := by rintro rfl; exact no_op h0 t ht
      simpa only [Tagged, hu, hso k h1] using tags k t ht
  case rdy =>
    intro k hk hp
    rw [hu] at hp
    rcases hfl k hk with rfl | ⟨_, e, hk'⟩
    · have := hok.us; simp only at this hp; rw [this] at hp; cases hp
    · rw [e]; exact rdy k hk' hp
  case nur =>
    intro k hp
    rw [hu] at hp
    by_cases h1 : k = (c, .w)
    · subst h1; rw [hsw]; exact hr3
    · rw [hso k h1]; exact nur k hp
  case cbU =>
    intro k i h1 h2
    rcases hfl k h1 with rfl | ⟨_, e, hk'⟩
    · rw [hsw, hr2] at h2; cases h2
    · rw [e] at h2
      obtain ⟨b1, b2, b3, b4⟩ := cbU k i hk' h2
      have hii : i ≠ id := by rintro rfl; exact hfresh.2.2.1 k hk' h2
      rw [hnx, han, hsf', upd_ne _ _ hii]
      refine ⟨b1, b2, b3, ?_⟩
      intro k2 h3 h4
      rcases hfl k2 h3 with rfl | ⟨_, e2, hk2⟩
      · rw [hsw, hr2] at h4; cases h4
      · rw [e2] at h4; exact b4 k2 hk2 h4
  case cbF =>
    intro k i h1 h2
    rcases hfl k h1 with rfl | ⟨_, e, hk'⟩
    · rw [hsw, hr2] at h2; cases h2
    · rw [e] at h2
      obtain ⟨sf, b1, b2⟩ := cbF k i hk' h2
      by_cases hii : i = id
      · subst hii; rw [hsf] at b1; cases b1
        exact ⟨{ st := c, file := f, refs := 2 }, by rw [hsf', upd_same], b2⟩
      · exact ⟨sf, by rw [hsf', upd_ne _ _ hii]; exact b1, b2⟩
  case cbS =>
    intro k i h1 h2
    rcases hfl k h1 with rfl | ⟨_, e, hk'⟩
    · rw [hsw, hr2] at h2; cases h2
      exact ⟨{ st := c, file := f, refs := 2 }, by rw [hsf', upd_same], rfl, rfl, rfl⟩
    · rw [e] at h2
      obtain ⟨sf, b1, b2, b3, b4⟩ := cbS k i hk' h2
      have hii : i ≠ id := by rintro rfl; rw [hsf] at b1; cases b1; simp at b4
      exact ⟨sf, by rw [hsf', upd_ne _ _ hii]; exact b1, b2, b3, b4⟩
  case cbN =>
    intro k h1
    rcases hfl k h1 with rfl | ⟨_, e, hk'⟩
    · rw [hsw, hr2]; simp
    · rw [e]; exact cbN k hk'
  case sfi =>
    intro i sf hi
    by_cases hii : i = id
    · subst hii
      rw [hsf', upd_same] at hi
      cases hi
      obtain ⟨a1, a2, a3, a4, a5, a6, a7, a8, a9, a10, a11, a12⟩ := hok
      constructor
      · rw [hnx]; exact hfresh.1
      · rw [hu]; exact a2
      · rw [hu]; exact a3
      · intro hp; obtain ⟨b1, b2⟩ := a4 hp; rw [(hfl' _ b1).2]; exact ⟨b1, b2⟩
      · intro _ _; rw [hsw]; exact ⟨hr1, hr2⟩
      · rw [hso _ (by simp [Ne.symm hcf])]; exact a6
      · simp
      · simp
      · intro hc; simp at hc
      · simp only [han]; constructor
        · intro hc; simp at hc
        · rintro (hc | hc)
          · exact absurd hc hfresh.2.1
          · cases hc
      · intro hc; simp at hc
      · intro hc; simp at hc
    · rw [hsf', upd_ne _ _ hii] at hi
      have hne := hn i sf hi
      obtain ⟨a1, a2, a3, a4, a5, a6, a7, a8, a9, a10, a11, a12⟩ := sfi i sf hi
      constructor <;> (try simp only [hu, hnx, hdn, han]) <;> try assumption
      · intro hp; obtain ⟨b1, b2⟩ := a4 hp; rw [(hfl' _ b1).2]; exact ⟨b1, b2⟩
      · intro hp hq; obtain ⟨b1, b2⟩ := a5 hp hq; rw [(hfl' _ b1).2]; exact ⟨b1, b2⟩
      · rw [hso _ (by simp [hne])]; exact a6
      · rw [a10]; constructor
        · rintro (h | h)
          · exact .inl h
          · cases h; exact absurd rfl hii
        · rintro (h | h)
          · exact .inl h
          · cases h
  case sfu =>
    have e : ∀ i sf, s'.sfs i = some sf → ∃ sf2, s.sfs i = some sf2 ∧ sf2.file = sf.file := by
      intro i sf hi
      rw [hsf'] at hi
      by_cases hii : i = id
      · subst hii; rw [upd_same] at hi; cases hi; exact ⟨_, hsf, rfl⟩
      · rw [upd_ne _ _ hii] at hi; exact ⟨sf, hi, rfl⟩
    intro i j sf sf' h1 h2 h3
    obtain ⟨x, hx, ex⟩ := e i sf h1
    obtain ⟨y, hy, ey⟩ := e j sf' h2
    exact sfu i j x y hx hy (by rw [ex, ey, h3])
  case pipe =>
    intro i
    rw [hsf', hpi]
    by_cases hii : i = id
    · subst hii; rw [upd_same, pipe i, hsf]
    · rw [upd_ne _ _ hii]; exact pipe i
  case ansN => rw [han]; exact ansN
  case ansL => rw [han, hnx]; exact ansL
  case fresh => intro i hi; cases hi
  case tot =>
    intro i hi
    rw [hnx] at hi
    rw [han, hsf']
    rcases tot i hi with h | h | ⟨k', h, h'⟩ | ⟨sf, h, h'⟩
    · exact .inl h
    · cases h; exact .inr (.inr (.inr ⟨{ st := c, file := f, refs := 2 }, by rw [upd_same], rfl⟩))
    · exact .inr (.inr (.inl ⟨k', by rw [(hfl' _ h).2]; exact h, by rw [(hfl' _ h).2]; exact h'⟩))
    · have hii : i ≠ id := by rintro rfl; rw [hsf] at h; cases h; simp at h'
      exact .inr (.inr (.inr ⟨sf, by rw [upd_ne _ _ hii]; exact h, h'⟩))
  case just =>
    intro q hq
    rw [han] at hq
    exact (just q hq).mono (by rw [hown]; exact fun x hx => hx) (by rw [hdn]; exact fun x hx => hx)

theorem push_hd (s : St) (q : Sqe) (h : s.head ≤ s.hist.length) : (push s q).head ≤ (push s q).hist.length := by
  simp only [push, List.length_append, List.length_singleton]; omega

/-- `read`, `write` -/
theorem rw_inv {s : St} {id : Nat} {k : Key} (dbg : Bool) (buf : Bool) (sub : Option Nat) (h : Inv s (some id)) (hsf : s.sfs id = none)
    (hf : (s.slots k).flag = false) (hn : ∀ i sf, s.sfs i = some sf → sf.file ≠ k.1) :
    ∃ s', rw dbg s k buf id sub = some s' ∧ Inv s' none := by
  have hn' : ∀ i sf, s.sfs i = some sf → (sf.file, Dir.w) ≠ k := fun i sf hi he => hn i sf hi (by rw [← he])
  cases hu : s.usepoll k.1
  · obtain ⟨sl, hsl⟩ : ∃ sl : Slot, sl = { s.slots k with st := k.1, cb := Cb.user id, nullb := if k.2 == Dir.r then false else (s.slots k).nullb } := ⟨_, rfl⟩
    have E : rw dbg s k buf id sub = (if (!(getSeq (setSlot s k sl) sub).2) = true then some (answerOwn (getSeq (setSlot s k sl) sub).1 id (-1))
        else some (push (setSlot (getSeq (setSlot s k sl) sub).1 k { (getSeq (setSlot s k sl) sub).1.slots k with flag := true, nullb := !buf })
          (.op k ⟨id, if buf then .data else .poll⟩))) := by
      subst hsl
      unfold rw
      dsimp only
      rw [if_neg (by simp [hf]), if_neg (by simp [hu])]
    have q1 : sl.flag = false := by rw [hsl]; exact hf
    have q2 : sl.ready = false := by rw [hsl]; exact h.nur k hu
    have q3 : sl.cb = .user id := by rw [hsl]
    have q4 : sl.st = k.1 := by rw [hsl]
    have i1 := inv_quiet h k sl hf q1 (fun _ => q2) hn'
    have e1 := getSeq_eqv (setSlot s k sl) sub
    have i2 := e1.inv i1
    have hk : (getSeq (setSlot s k sl) sub).1.slots k = sl := by rw [e1.slots]; exact upd_same _ _ _
    rw [E, hk]
    clear E hsl
    cases hok : (getSeq (setSlot s k sl) sub).2
    · exact ⟨_, rfl, inv_own _ i2⟩
    · refine ⟨_, rfl, ?_⟩
      refine inv_start (sl := { sl with flag := true, nullb := !buf }) i2 (by rw [e1.sfs]; exact hsf) (by rw [hk]; exact q1) (by rw [e1.sfs]; exact hn')
        rfl q3 q4 (fun _ => q2) (.inr ⟨q2, if buf then .data else .poll, push_live _ _ i2.hd, ?_⟩) rfl rfl rfl rfl rfl rfl rfl rfl (push_hd _ _ i2.hd)
      rw [e1.up]
      show _ ∨ _ ∧ _ = !s.usepoll k.1
      rw [hu]
      cases buf <;> simp
  · obtain ⟨sl, hsl⟩ : ∃ sl : Slot, sl = { s.slots k with st := k.1, cb := Cb.user id, nullb := false } := ⟨_, rfl⟩
    have E : rw dbg s k buf id sub = (if (s.slots k).ready = true then some (setSlot (setSlot s k sl) k { (setSlot s k sl).slots k with flag := true }) else
        if (!(getSeq (setSlot s k sl) sub).2) = true then some (answerOwn (getSeq (setSlot s k sl) sub).1 id (-1))
        else some (push (setSlot (getSeq (setSlot s k sl) sub).1 k { (getSeq (setSlot s k sl) sub).1.slots k with flag := true })
          (.op k ⟨id, .poll⟩))) := by
      subst hsl
      unfold rw
      dsimp only
      rw [if_neg (by simp [hf]), if_pos hu]
    have q1 : sl.flag = false := by rw [hsl]; exact hf
    have q3 : sl.cb = .user id := by rw [hsl]
    have q4 : sl.st = k.1 := by rw [hsl]
    have q5 : sl.nullb = false := by rw [hsl]
    have q2 : sl.ready = (s.slots k).ready := by rw [hsl]
    have i1 := inv_quiet h k sl hf q1 (fun hc => by rw [hu] at hc; cases hc) hn'
    have hk0 : (setSlot s k sl).slots k = sl := upd_same _ _ _
    have e1 := getSeq_eqv (setSlot s k sl) sub
    have i2 := e1.inv i1
    have hk : (getSeq (setSlot s k sl) sub).1.slots k = sl := by rw [e1.slots]; exact upd_same _ _ _
    rw [E, hk, hk0]
    clear E hsl
    cases hr : (s.slots k).ready
    · rw [if_neg (by simp)]
      cases hok : (getSeq (setSlot s k sl) sub).2
      · exact ⟨_, rfl, inv_own _ i2⟩
      · refine ⟨_, rfl, ?_⟩
        refine inv_start (sl := { sl with flag := true }) i2 (by rw [e1.sfs]; exact hsf) (by rw [hk]; exact q1) (by rw [e1.sfs]; exact hn')
          rfl q3 q4 (fun _ => by rw [q2, hr]) (.inr ⟨by rw [q2, hr], .poll, push_live _ _ i2.hd, .inr ⟨rfl, ?_⟩⟩) rfl rfl rfl rfl rfl rfl rfl rfl (push_hd _ _ i2.hd)
        rw [e1.up]
        show sl.nullb = !s.usepoll k.1
        rw [hu, q5]; rfl
    · rw [if_pos rfl]
      refine ⟨_, rfl, ?_⟩
      exact inv_start (sl := { sl with flag := true }) i1 hsf (by rw [hk0]; exact q1) hn'
          rfl q3 q4 (fun hc => by rw [show (setSlot s k sl).usepoll k.1 = s.usepoll k.1 from rfl, hu] at hc; cases hc)
          (.inl ⟨by rw [q2, hr], List.Perm.refl _⟩) rfl rfl rfl rfl rfl rfl rfl rfl i1.hd

/-- `accept`, `connect`, `aio_read`, `aio_write` -/
theorem plain_inv {s : St} {k : Key} (dbg : Bool) (sub : Option Nat) (h : Inv s none) (hu : s.usepoll k.1 = false)
    (hf : (s.slots k).flag = false) (hn : ∀ i sf, s.sfs i = some sf → sf.file ≠ k.1) :
    ∃ s', plain dbg s k sub = some s' ∧ Inv s' none := by
  have hn' : ∀ i sf, s.sfs i = some sf → (sf.file, Dir.w) ≠ k := fun i sf hi he => hn i sf hi (by rw [← he])
  have e1 := getSeq_eqv s sub
  have i2 := e1.inv h
  have E : plain dbg s k sub = (if (!(getSeq s sub).2) = true then some (getSeq s sub).1 else
      some { push (setSlot (getSeq s sub).1 k { (getSeq s sub).1.slots k with st := k.1, cb := Cb.user (getSeq s sub).1.next, nullb := false, flag := true })
        (.op k ⟨(getSeq s sub).1.next, .data⟩) with next := (getSeq s sub).1.next + 1 }) := by
    unfold plain
    dsimp only
    rw [if_neg (c := (dbg && ((getSeq s sub).1.slots k).flag) = true) (by rw [e1.slots]; simp [hf])]
    rfl
  have hk : (getSeq s sub).1.slots k = s.slots k := by rw [e1.slots]
  rw [E, hk]
  clear E
  cases hok : (getSeq s sub).2
  · exact ⟨_, rfl, i2⟩
  · refine ⟨_, rfl, ?_⟩
    have i3 := inv_new i2
    refine inv_start (s := { (getSeq s sub).1 with next := (getSeq s sub).1.next + 1 }) (id := (getSeq s sub).1.next) (k := k)
      (sl := { s.slots k with st := k.1, cb := Cb.user (getSeq s sub).1.next, nullb := false, flag := true }) i3 ?_ ?_ ?_
        rfl rfl rfl (fun _ => h.nur k hu) (.inr ⟨h.nur k hu, .data, ?_, .inl ⟨rfl, rfl⟩⟩) rfl rfl rfl rfl rfl rfl rfl rfl (push_hd _ _ i2.hd)
    · show (getSeq s sub).1.sfs (getSeq s sub).1.next = none
      cases hx : (getSeq s sub).1.sfs (getSeq s sub).1.next with
      | none => rfl
      | some sf => exact absurd (i2.sfi _ sf hx).lt (Nat.lt_irrefl _)
    · show ((getSeq s sub).1.slots k).flag = false
      rw [e1.slots]; exact hf
    · show ∀ i sf, (getSeq s sub).1.sfs i = some sf → _
      rw [e1.sfs]; exact hn'
    · exact push_live _ _ i2.hd

theorem getSeq_sfs (s : St) (x : Nat → Option Sf) (sub : Option Nat) :
    getSeq { s with sfs := x } sub = ({ (getSeq s sub).1 with sfs := x }, (getSeq s sub).2) := by
  unfold getSeq
  have : ({ s with sfs := x } : St).sq = s.sq := rfl
  rw [this]
  by_cases h : s.sq.length < s.cap
  · rw [if_pos h, if_pos h]
  · rw [if_neg h, if_neg h]
    cases sub <;> rfl

/-- `sendfile` -/
theorem sendfile_inv {s : St} {c f : Nat} (sub1 sub2 : Option Nat) (h : Inv s none)
    (hcf : c ≠ f) (hcu : s.usepoll c = false) (hfu : s.usepoll f = false)
    (hcw : (s.slots (c, .w)).flag = false) (hfr : (s.slots (f, .r)).flag = false) (hfw : (s.slots (f, .w)).flag = false)
    (hn : ∀ i sf, s.sfs i = some sf → sf.file ≠ c ∧ sf.file ≠ f) :
    ∃ s', sendfile s c f true sub1 sub2 = some s' ∧ Inv s' none := by
  have i0 := inv_new h
  obtain ⟨s0, hs0⟩ : ∃ s0 : St, s0 = { s with next := s.next + 1 } := ⟨_, rfl⟩
  have b0 : s0.usepoll = s.usepoll ∧ s0.slots = s.slots ∧ s0.sfs = s.sfs := by rw [hs0]; exact ⟨rfl, rfl, rfl⟩
  rw [← hs0] at i0
  have e1 := getSeq_eqv s0 sub1
  have i1 := e1.inv i0
  have d0 : s.sfs s.next = none := by
    cases hx : s.sfs s.next with
    | none => rfl
    | some sf => exact absurd (h.sfi _ sf hx).lt (Nat.lt_irrefl _)
  obtain ⟨g, hg⟩ : ∃ g, g = getSeq s0 sub1 := ⟨_, rfl⟩
  obtain ⟨slw, hslw⟩ : ∃ sl : Slot, sl = { g.1.slots (f, .w) with cb := .user s.next, st := c } := ⟨_, rfl⟩
  obtain ⟨slr, hslr⟩ : ∃ sl : Slot, sl = { g.1.slots (f, .r) with cb := .sfFile s.next, st := f, flag := true } := ⟨_, rfl⟩
  obtain ⟨B, hB⟩ : ∃ B : St, B = push { g.1 with slots := upd (upd g.1.slots (f, .w) slw) (f, .r) slr, sfs := upd g.1.sfs s.next (some { st := c, file := f, skip := true }), pipes := upd g.1.pipes s.next (true, true) } (.op (f, .r) ⟨s.next, .sfFile⟩) := ⟨_, rfl⟩
  obtain ⟨g2, hg2⟩ : ∃ g2, g2 = getSeq B sub2 := ⟨_, rfl⟩
  have hBs : g2.1.sfs = upd g.1.sfs s.next (some { st := c, file := f, skip := true }) := by
    rw [hg2, (getSeq_eqv B sub2).sfs, hB]; rfl
  have E : sendfile s c f true sub1 sub2 = (if (!g.2) = true then some (answerOwn g.1 s.next (-1)) else
      if (!g2.2) = true then some (answerOwn g2.1 s.next (-1)) else
      some (push { g2.1 with slots := upd g2.1.slots (c, .w) { g2.1.slots (c, .w) with cb := .sfSock s.next, st := c, flag := true }, sfs := upd g2.1.sfs s.next (some { st := c, file := f, refs := 2 }) }
        (.op (c, .w) ⟨s.next, .sfSock (g2.1.slots (c, .w)).nullb⟩))) := by
    have hA : getSeq ({ B with sfs := upd g.1.sfs s.next (some { st := c, file := f }) } : St) sub2 = ({ g2.1 with sfs := upd g.1.sfs s.next (some { st := c, file := f }) }, g2.2) := by
      rw [hg2]; exact getSeq_sfs _ _ _
    have hslr' : slr = { (upd g.1.slots (f, .w) slw) (f, .r) with cb := .sfFile s.next, st := f, flag := true } := by
      rw [hslr, upd_ne _ _ (by simp)]
    subst hs0
    unfold sendfile
    dsimp only
    rw [← hg]
    simp only [Bool.not_true, Bool.false_eq_true, if_false]
    have hAB : push (setSlot (setSlot ({ g.1 with sfs := upd g.1.sfs s.next (some { st := c, file := f }), pipes := upd g.1.pipes s.next (true, true) } : St) (f, .w) slw) (f, .r) slr) (.op (f, .r) ⟨s.next, .sfFile⟩)
      = ({ B with sfs := upd g.1.sfs s.next (some { st := c, file := f }) } : St) := by
      rw [hB]; rfl
    have hw' : ({ g.1 with sfs := upd g.1.sfs s.next (some { st := c, file := f }), pipes := upd g.1.pipes s.next (true, true) } : St).slots = g.1.slots := rfl
    have h1 : (setSlot ({ g.1 with sfs := upd g.1.sfs s.next (some { st := c, file := f }), pipes := upd g.1.pipes s.next (true, true) } : St) (f, .w) slw).slots (f, .r) = (upd g.1.slots (f, .w) slw) (f, .r) := rfl
    rw [← hslw, h1, ← hslr', hAB, hA]
    have hx : upd (upd g.1.sfs s.next (some { st := c, file := f })) s.next (some { st := c, file := f, skip := true }) = g2.1.sfs := by
      rw [upd_upd, hBs]
    have hy : upd (upd g.1.sfs s.next (some { st := c, file := f })) s.next (some { st := c, file := f, refs := 2 }) = upd g2.1.sfs s.next (some { st := c, file := f, refs := 2 }) := by
      rw [upd_upd, hBs, upd_upd]
    dsimp only
    rw [hx, hy]
    rfl
  rw [E]
  clear E
  rw [← hg] at i1 e1
  cases hok : g.2
  · exact ⟨_, rfl, inv_own _ i1⟩
  rw [if_neg (by simp)]
  have hd1 := i1.hd
  have iB : Inv B (some s.next) := by
    have e2 := push_live { g.1 with slots := upd (upd g.1.slots (f, .w) slw) (f, .r) slr, sfs := upd g.1.sfs s.next (some { st := c, file := f, skip := true }), pipes := upd g.1.pipes s.next (true, true) } (.op (f, .r) ⟨s.next, .sfFile⟩) hd1
    rw [← hB] at e2
    refine inv_sf1 (s' := B) (c := c) (f := f) (slw := slw) (slr := slr) i1 ?_ hcf ?_ ?_ ?_ ?_ ?_ ?_ ?_ ?_ ?_ ?_ ?_ ?_ e2
      (by rw [hB]; rfl) (by rw [hB]; rfl) (by rw [hB]; rfl) (by rw [hB]; rfl) (by rw [hB]; rfl) (by rw [hB]; rfl) (by rw [hB]; rfl) (by rw [hB]; rfl) (by rw [hB]; exact push_hd _ _ hd1)
    · rw [e1.sfs, b0.2.2]; exact d0
    · rw [e1.up, b0.1]; exact hcu
    · rw [e1.up, b0.1]; exact hfu
    · rw [e1.slots, b0.2.1]; exact hfr
    · rw [e1.slots, b0.2.1]; exact hfw
    · rw [e1.sfs, b0.2.2]; exact hn
    · rw [hslw, e1.slots, b0.2.1]; exact hfw
    · rw [hslw]
    · rw [hslw, e1.slots, b0.2.1]; exact h.nur _ hfu
    · rw [hslr]
    · rw [hslr]
    · rw [hslr, e1.slots, b0.2.1]; exact h.nur _ hfu
    · rw [hslr]
  have e3 := getSeq_eqv B sub2
  have i3 := e3.inv iB
  rw [← hg2] at i3 e3
  cases hok2 : g2.2
  · exact ⟨_, rfl, inv_own _ i3⟩
  rw [if_neg (by simp)]
  have hcs : g2.1.slots (c, .w) = s.slots (c, .w) := by
    rw [e3.slots, hB]
    show upd (upd g.1.slots (f, .w) slw) (f, .r) slr (c, .w) = _
    rw [upd_ne _ _ (by simp), upd_ne _ _ (by simp [hcf]), e1.slots, b0.2.1]
  refine ⟨_, rfl, ?_⟩
  refine inv_sf2 (c := c) (f := f) (slw := { g2.1.slots (c, .w) with cb := .sfSock s.next, st := c, flag := true }) (b := (g2.1.slots (c, .w)).nullb) i3 ?_ hcf ?_ ?_
    rfl rfl ?_ rfl rfl (push_live _ _ i3.hd) rfl rfl rfl rfl rfl rfl rfl rfl (push_hd _ _ i3.hd)
  · rw [hBs, upd_same]
  · rw [hcs]; exact hcw
  · rw [hBs]
    intro i sf hi
    by_cases hii : i = s.next
    · subst hii; rw [upd_same] at hi; cases hi; exact fun hc => hcf hc.symm
    · rw [upd_ne _ _ hii, e1.sfs, b0.2.2] at hi; exact (hn i sf hi).1
  · rw [hcs]; exact h.nur _ hcu

/-- a poll of a STF_USEPOLL socket ends: the slot is ready -/
theorem inv_ready {s s' : St} {k : Key} {t : Tag} (h : Inv s none) (hup : s.usepoll k.1 = true)
    (hl : s.live.Perm (.op k t :: s'.live)) (hs : s'.slots = upd s.slots k { s.slots k with ready := true }) (hu : s'.usepoll = s.usepoll)
    (hsf : s'.sfs = s.sfs) (hpi : s'.pipes = s.pipes) (hnx : s'.next = s.next)
    (hdn : ∀ x ∈ s.done, x ∈ s'.done) (han : s'.ans = s.ans) (hown : s'.own = s.own) (hhd : s'.head ≤ s'.hist.length) : Inv s' none := by
  obtain ⟨hd, sane, hcnt, tags, rdy, nur, cbU, cbF, cbS, cbN, sfi, sfu, pipe, ansN, ansL, fresh, tot, just⟩ := h
  have hc0 : cnt s' k = 0 := by
    have := cnt_cons hl k
    have h2 := hcnt k
    have h3 : (if busy s k = true then 1 else 0) ≤ 1 := by split <;> omega
    simp [Sqe.on] at this
    omega
  have hsub : ∀ q ∈ s'.live, q ∈ s.live := fun q hq => hl.mem_iff.2 (List.mem_cons_of_mem _ hq)
  have hco : ∀ k', k' ≠ k → cnt s' k' = cnt s k' := by
    intro k' hk
    have := cnt_cons hl k'; simp [Sqe.on, Ne.symm hk] at this; exact this.symm
  have hfl : ∀ k', (s'.slots k').flag = (s.slots k').flag := by
    intro k'; rw [hs]; simp only [upd]; split
    · rename_i e; rw [e]
    · rfl
  have hcb : ∀ k', (s'.slots k').cb = (s.slots k').cb := by
    intro k'; rw [hs]; simp only [upd]; split
    · rename_i e; rw [e]
    · rfl
  constructor
  case hd => exact hhd
  case sane => exact fun h => sane (hsub _ h)
  case cnt =>
    intro k'
    by_cases hk : k' = k
    · subst hk; rw [hc0]; simp [busy, hs, upd_same, hu, hup]
    · rw [hco k' hk, hcnt k', show busy s' k' = busy s k' by simp only [busy, hs, hu, upd_ne _ _ hk]]
  case tags =>
    intro k' t ht
    have hk : k' ≠ k := by rintro rfl; exact no_op hc0 t ht
    simpa only [Tagged, hs, hu, upd_ne _ _ hk] using tags k' t (hsub _ ht)
  case rdy => intro k'; rw [hfl, hcb, hu]; exact rdy k'
  case nur =>
    intro k' hp
    rw [hu] at hp
    have hk : k' ≠ k := by rintro rfl; rw [hup] at hp; cases hp
    rw [hs, upd_ne _ _ hk]; exact nur k' hp
  case cbU => simp only [hfl, hcb, hsf, hnx, han]; exact cbU
  case cbF => simp only [hfl, hcb, hsf]; exact cbF
  case cbS => simp only [hfl, hcb, hsf]; exact cbS
  case cbN => simp only [hfl, hcb]; exact cbN
  case sfi =>
    intro i sf hi
    rw [hsf] at hi
    obtain ⟨a1, a2, a3, a4, a5, a6, a7, a8, a9, a10, a11, a12⟩ := sfi i sf hi
    constructor <;> (try simp only [hfl, hcb, hu, hnx, han]) <;> try assumption
    · intro h0; obtain ⟨b, w, hm, he⟩ := a11 h0; exact ⟨b, w, hdn _ hm, he⟩
    · intro h0; obtain ⟨v, hm⟩ := a12 h0; exact ⟨v, hdn _ hm⟩
  case sfu => rw [hsf]; exact sfu
  case pipe => rw [hsf, hpi]; exact pipe
  case ansN => rw [han]; exact ansN
  case ansL => rw [han, hnx]; exact ansL
  case fresh => intro i hi; cases hi
  case tot => simp only [hfl, hcb, hsf, hnx, han]; exact tot
  case just =>
    intro q hq
    rw [han] at hq
    exact (just q hq).mono (by rw [hown]; exact fun x hx => hx) hdn

/-- a completion is handled -/
theorem complete_inv {s s1 : St} {k : Key} {t : Tag} {v : Int} (dbg : Bool) (h : Inv s none)
    (hl : s.live.Perm (.op k t :: s1.live)) (hd1 : s1.done = s.done ++ [(t, v)])
    (hs : s1.slots = s.slots) (hu : s1.usepoll = s.usepoll) (hsf : s1.sfs = s.sfs) (hpi : s1.pipes = s.pipes) (hnx : s1.next = s.next)
    (han : s1.ans = s.ans) (hown : s1.own = s.own) (hhd : s1.head ≤ s1.hist.length) :
    ∃ s', complete dbg s1 k v = some s' ∧ Inv s' none := by
  have hm : Sqe.op k t ∈ s.live := hl.mem_iff.2 (List.mem_cons_self ..)
  have hbusy : busy s k = true := by
    have := cnt_cons hl k
    have h2 := h.cnt k
    cases hb : busy s k
    · rw [hb] at h2; simp [Sqe.on] at this h2; omega
    · rfl
  have hT := h.tags k t hm
  have hflag : (s.slots k).flag = true := by simp only [busy, Bool.and_eq_true] at hbusy; exact hbusy.1
  have hdn : ∀ x ∈ s.done, x ∈ s1.done := by rw [hd1]; intro x hx; exact List.mem_append_left _ hx
  have htd : (t, v) ∈ s1.done := by rw [hd1]; simp
  unfold complete
  dsimp only
  rw [hs, if_pos hT.1, if_neg (by simp [hflag])]
  cases hup : s.usepoll k.1
  · rw [if_neg (by simp [hu, hup]), if_neg (by simp [h.nur k hup])]
    obtain ⟨sl, hsl⟩ : ∃ sl : Slot, sl = { s.slots k with flag := false } := ⟨_, rfl⟩
    rw [← hsl]
    have q1 : sl.flag = false := by rw [hsl]
    have q2 : sl.ready = false := by rw [hsl]; exact h.nur k hup
    obtain ⟨s2, hs2⟩ : ∃ s2, s2 = setSlot s1 k sl := ⟨_, rfl⟩
    have c1 : s2.slots = upd s.slots k sl := by rw [hs2, ← hs]; rfl
    have c2 : s2.usepoll = s.usepoll := by rw [hs2, ← hu]; rfl
    have c3 : s2.sfs = s.sfs := by rw [hs2, ← hsf]; rfl
    have c4 : s2.pipes = s.pipes := by rw [hs2, ← hpi]; rfl
    have c5 : s2.next = s.next := by rw [hs2, ← hnx]; rfl
    have c6 : s2.ans = s.ans := by rw [hs2, ← han]; rfl
    have c7 : s2.own = s.own := by rw [hs2, ← hown]; rfl
    have c8 : s2.head ≤ s2.hist.length := by rw [hs2]; exact hhd
    have c9 : s2.done = s1.done := by rw [hs2]; rfl
    have c10 : s2.live = s1.live := by rw [hs2]; rfl
    rw [← hs2]
    have hl2 : s.live.Perm (.op k t :: s2.live) := by rw [c10]; exact hl
    rw [← c9] at hdn htd
    clear hsl hs2
    have user : ∀ (w : Int), (s.slots k).cb = .user t.req → Just s2 (t.req, w) → Inv (answer s2 t.req w) none := by
      intro w hc hj
      have i1 := inv_finish (s' := s2) (sl := sl) h hflag hc q1 (fun _ => q2) (.inr ⟨t, hl2⟩) c1 c2 c3 c4 c5 hdn c6 c7 c8
      exact inv_ans (v := w) i1 rfl (Just.mono hj (fun x hx => hx) (fun x hx => hx)) rfl (fun x hx => hx)
    rcases t with ⟨id, kd⟩
    cases kd with
    | data =>
      have hc := hT.2.1
      rw [hc]
      refine ⟨_, rfl, user _ hc ?_⟩
      rw [hT.2.2]
      simp only [Bool.and_false, Bool.false_eq_true, if_false]
      exact .inr (.inl htd)
    | poll =>
      have hc := hT.2.1
      rw [hc]
      refine ⟨_, rfl, user _ hc ?_⟩
      rw [hT.2.2]
      refine .inr (.inr (.inl ⟨v, htd, ?_⟩))
      simp [hup]
    | sfFile =>
      have hc : (s.slots k).cb = .sfFile id := hT.2
      rw [hc]
      obtain ⟨sf, b1, b2, b3⟩ := h.cbF k id hflag hc
      have hok := h.sfi id sf b1
      have hp := h.pipe id
      rw [b1] at hp
      simp only [b3] at hp
      generalize hgot : (if (decide (v > 0) && (s.slots k).nullb) = true then 0 else v) = got
      unfold callback
      simp only [c3, b1, close1, c4, hp, if_true]
      unfold sfResult
      simp only [upd_same]
      have hrf : sf.refs = 1 ∨ sf.refs = 2 := by
        have h1 := hok.refs; have h2 := hok.pos; clear * - h1 h2; grind
      rcases hrf with hrf | hrf
      · rw [if_neg (by rw [hrf]; simp)]
        simp only [Bool.false_eq_true, if_false, upd_upd]
        unfold sfCall
        cases hsk : sf.skip
        · -- the answer
          have hp0 : sf.p0 = false := by
            have h1 := hok.refs; rw [hrf, b3, hsk] at h1; cases h : sf.p0
            · rfl
            · rw [h] at h1; simp at h1
          have hfw : s2.slots (sf.file, .w) = s.slots (sf.file, .w) := by rw [c1, upd_ne _ _ (by rw [b2]; simp)]
          simp only [hp0, Bool.false_eq_true, if_false, hfw, hok.fw.2]
          refine ⟨_, rfl, ?_⟩
          have i1 := inv_last (s := s) (s' := { s2 with sfs := upd s.sfs id none, pipes := upd s.pipes id (false, false) }) (sl := sl) (k := k) h b1 hflag (.inl ⟨hc, b2, b3⟩) hrf q1 q2 hl2 c1 c2 rfl rfl c5 hdn c6 c7 c8
          rw [hsk, if_neg (by simp)] at i1
          refine inv_ans (v := sf.got) i1 rfl ?_ rfl (fun x hx => hx)
          obtain ⟨b, w, hm, he⟩ := hok.d0 hp0
          exact .inr (.inr (.inr ⟨b, w, v, hdn _ hm, htd, he⟩))
        · have hp0 := (hok.sk hsk).1
          simp only [if_true, hp0, Option.bind, close0, upd_same, upd_upd]
          refine ⟨_, rfl, ?_⟩
          have i1 := inv_last (s := s) (s' := { s2 with sfs := upd s.sfs id none, pipes := upd s.pipes id (false, false) }) (sl := sl) (k := k) h b1 hflag (.inl ⟨hc, b2, b3⟩) hrf q1 q2 hl2 c1 c2 rfl rfl c5 hdn c6 c7 c8
          rw [hsk, if_pos rfl] at i1
          exact i1
      · rw [if_pos (by rw [hrf]; simp)]
        refine ⟨_, rfl, ?_⟩
        refine inv_half (s := s) (sl := sl) (k := k) (sf' := { sf with p1 := false, refs := 1 }) h b1 hflag hrf (.inl ⟨hc, b2, rfl, v, htd⟩) q1 q2 hl2 c1 c2 ?_ ?_ c5 hdn c6 c7 c8
        · simp only [upd_upd, hrf, Bool.false_eq_true, if_false]
        · rfl
    | sfSock b =>
      have hc : (s.slots k).cb = .sfSock id := hT.2.1
      rw [hc]
      obtain ⟨sf, b1, b2, b3, b4⟩ := h.cbS k id hflag hc
      have hok := h.sfi id sf b1
      have hp := h.pipe id
      rw [b1] at hp
      simp only [b3] at hp
      generalize hgot : (if (decide (v > 0) && (s.slots k).nullb) = true then 0 else v) = got
      have hgot' : got = if v > 0 ∧ b = true then 0 else v := by
        rw [← hgot, hT.2.2]; simp
      unfold callback
      simp only [c3, b1, close0, c4, hp, if_true]
      unfold sfResult
      simp only [upd_same]
      have hrf : sf.refs = 1 ∨ sf.refs = 2 := by
        have h1 := hok.refs; have h2 := hok.pos; clear * - h1 h2; grind
      have hcf : (sf.file, Dir.w) ≠ k := by
        intro he; have := hok.fw.1; rw [he, hflag] at this; cases this
      rcases hrf with hrf | hrf
      · rw [if_neg (by rw [hrf]; simp)]
        have hp1 : sf.p1 = false := by
          have h1 := hok.refs; rw [hrf, b3, b4] at h1; cases h : sf.p1
          · rfl
          · rw [h] at h1; simp at h1
        have hfw : s2.slots (sf.file, .w) = s.slots (sf.file, .w) := by rw [c1, upd_ne _ _ hcf]
        simp only [sfCall, hp1, b4, Bool.false_eq_true, if_false, if_true, hfw, hok.fw.2, upd_upd]
        refine ⟨_, rfl, ?_⟩
        have i1 := inv_last (s := s) (s' := { s2 with sfs := upd s.sfs id none, pipes := upd s.pipes id (false, false) }) (sl := sl) (k := k) h b1 hflag (.inr ⟨hc, b2, b3, b4⟩) hrf q1 q2 hl2 c1 c2 rfl rfl c5 hdn c6 c7 c8
        rw [b4, if_neg (by simp)] at i1
        refine inv_ans (v := got) i1 rfl ?_ rfl (fun x hx => hx)
        obtain ⟨w, hm⟩ := hok.d1 hp1
        exact .inr (.inr (.inr ⟨b, v, w, htd, hdn _ hm, hgot'⟩))
      · rw [if_pos (by rw [hrf]; simp)]
        refine ⟨_, rfl, ?_⟩
        refine inv_half (s := s) (sl := sl) (k := k) (sf' := { sf with p0 := false, refs := 1, got := got }) h b1 hflag hrf
          (.inr ⟨hc, b2, got, rfl, b, v, htd, hgot'⟩) q1 q2 hl2 c1 c2 ?_ ?_ c5 hdn c6 c7 c8
        · simp only [upd_upd, hrf, if_true]
        · rfl
  · rw [if_pos (by rw [hu]; exact hup)]
    refine ⟨_, rfl, ?_⟩
    exact inv_ready (s := s) (k := k) (t := t) h hup hl (by rw [← hs]; rfl) hu hsf hpi hnx hdn han hown hhd

theorem step_inv {dbg : Bool} {s : St} {o : Op} (h : Inv s none) (ha : Allowed s o) : ∃ s', step dbg s o = some s' ∧ Inv s' none := by
  cases o with
  | rw k buf sub =>
    refine rw_inv (s := { s with next := s.next + 1 }) dbg buf sub (inv_new h) ?_ ha.1 ha.2
    show s.sfs s.next = none
    cases hx : s.sfs s.next with
    | none => rfl
    | some sf => exact absurd (h.sfi _ sf hx).lt (Nat.lt_irrefl _)
  | plain k sub => exact plain_inv dbg sub h ha.1 ha.2.1 ha.2.2
  | sendfile c f pipe sub1 sub2 =>
    obtain ⟨rfl, h1, h2, h3, h4, h5, h6, h7⟩ := ha
    exact sendfile_inv sub1 sub2 h h1 h2 h3 h4 h5 h6 h7
  | submit n => exact ⟨_, rfl, (submit_eqv s n).inv h⟩
  | timeout sub =>
    have e1 := getSeq_eqv s sub
    have i1 := e1.inv h
    have E : step dbg s (.timeout sub) = some (push (getSeq s sub).1 .timeout) := by
      have hg : (getSeq s sub).2 = true := ha
      simp only [step, hg, Bool.not_true, Bool.false_eq_true, if_false]
    refine ⟨_, E, ?_⟩
    have hl := push_live (getSeq s sub).1 .timeout i1.hd
    obtain ⟨hd, sane, hcnt, tags, rdy, nur, cbU, cbF, cbS, cbN, sfi, sfu, pipe, ansN, ansL, fresh, tot, just⟩ := i1
    constructor <;> try assumption
    · exact push_hd _ _ hd
    · rw [hl.mem_iff]; simp [sane]
    · intro k; rw [cnt_cons hl k]; rw [show (Sqe.timeout.on k) = false from rfl, if_neg (by simp), Nat.add_zero]; exact hcnt k
    · intro k t ht
      rw [hl.mem_iff, List.mem_cons] at ht
      rcases ht with ht | ht
      · cases ht
      · exact tags k t ht
    · intro i sf hi
      obtain ⟨a1, a2, a3, a4, a5, a6, a7, a8, a9, a10, a11, a12⟩ := sfi i sf hi
      constructor <;> assumption
  | kernel i v =>
    simp only [step]
    cases hq : s.inflight[i]? with
    | none => exact ⟨_, rfl, h⟩
    | some q =>
      refine ⟨_, rfl, Eqv.inv (s := s) ⟨rfl, rfl, rfl, rfl, rfl, rfl, rfl, rfl, rfl, fun h => h, ?_⟩ h⟩
      obtain ⟨hi, hqe⟩ := List.getElem?_eq_some_iff.1 hq
      have hp : s.inflight.Perm (q :: s.inflight.eraseIdx i) := by
        have e1 : s.inflight = s.inflight.take i ++ q :: s.inflight.drop (i + 1) := by
          rw [← hqe, List.getElem_cons_drop, List.take_append_drop]
        have e2 : s.inflight.eraseIdx i = s.inflight.take i ++ s.inflight.drop (i + 1) := List.eraseIdx_eq_take_drop_succ ..
        rw [e2]
        exact (List.Perm.of_eq e1).trans List.perm_middle
      show (s.sq ++ s.inflight.eraseIdx i ++ (s.cq ++ [(q, v)]).map (·.1)).Perm (s.sq ++ s.inflight ++ s.cq.map (·.1))
      rw [List.map_append, List.append_assoc, List.append_assoc]
      refine List.Perm.append_left _ ?_
      refine List.Perm.trans ?_ (List.Perm.append_right _ hp.symm)
      rw [← List.append_assoc]
      exact List.perm_append_comm
  | handle =>
    simp only [step]
    cases hq : s.cq with
    | nil => exact ⟨_, rfl, h⟩
    | cons x cq =>
      obtain ⟨q, v⟩ := x
      have hl : s.live.Perm (q :: ({ s with cq := cq } : St).live) := by
        show (s.sq ++ s.inflight ++ s.cq.map (·.1)).Perm (q :: (s.sq ++ s.inflight ++ cq.map (·.1)))
        rw [hq]; exact List.perm_middle
      cases q with
      | zero => exact absurd (hl.mem_iff.2 (List.mem_cons_self ..)) h.sane
      | timeout => exact ⟨_, rfl, inv_drop (s := s) (q := .timeout) h (fun _ => rfl) hl rfl rfl rfl rfl rfl rfl rfl rfl h.hd⟩
      | op k t =>
        exact complete_inv (s := s) (s1 := { s with cq := cq, done := s.done ++ [(t, v)] }) dbg h hl rfl rfl rfl rfl rfl rfl rfl rfl h.hd
  | fire k v keep sub =>
    obtain ⟨h1, h2, h3⟩ := ha
    obtain ⟨id, hc⟩ := h.rdy k h2 h1
    have hsf := (h.cbU k id h2 hc).2.2.1
    have fin : ∀ r, Inv (setSlot s k { flag := false, ready := r, st := (s.slots k).st, cb := Cb.user id, nullb := (s.slots k).nullb }) (some id) := by
      intro r
      exact inv_finish (s := s) (sl := { flag := false, ready := r, st := (s.slots k).st, cb := Cb.user id, nullb := (s.slots k).nullb }) h h2 hc rfl (fun hh => by rw [h1] at hh; cases hh)
        (.inl ⟨h1, h3, List.Perm.refl _⟩) rfl rfl rfl rfl rfl (fun x hx => hx) rfl rfl h.hd
    simp only [step, hc]
    cases v with
    | some v => exact ⟨_, rfl, inv_own _ (fin keep)⟩
    | none =>
      have f := fin false
      refine rw_inv (s := setSlot s k { flag := false, ready := false, st := (s.slots k).st, cb := Cb.user id, nullb := (s.slots k).nullb }) dbg true sub f hsf (by simp [setSlot, upd]) ?_
      intro i sf hi he
      have := (h.sfi i sf hi).uf
      rw [he, h1] at this; cases this

/-- every reachable state meets the invariant -/
theorem reachable_inv {dbg : Bool} {cap : Nat} {up : Nat → Bool} {s : St} (h : Reachable dbg cap up s) : Inv s none := by
  induction h with
  | refl => exact inv_init cap up
  | tail o _ ha he ih =>
    obtain ⟨s2, h2, h3⟩ := step_inv (dbg := dbg) ih ha
    rw [he] at h2; cases h2; exact h3

end Kasync.Uring
