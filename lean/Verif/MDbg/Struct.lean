import Verif.MDbg.Inv

/-! # Debugging allocator: the structural invariant is kept -/

namespace Kasync.MDbg

theorem SInv.mem {s : St} (h : SInv s) (m : Nat → UInt8) : SInv { s with mem := m } := by
  cases h; constructor <;> assumption

/-- The waiting threads after the block at `u` is gone: those that wait for it have nothing to wait for. -/
structure Waits (s : St) (u : Nat) (thr' : Nat → Option Pend) : Prop where
  same : ∀ t p, s.thr t = some p → p.old ≠ u → thr' t = some p
  gone : ∀ t p, s.thr t = some p → p.old = u → ∃ p', thr' t = some p' ∧ p'.size = p.size ∧ p'.old = 0 ∧ p'.kn = p.kn ∧ p'.zero = p.zero
  none : ∀ t, s.thr t = none → thr' t = none

theorem Waits.rev_none {s : St} {u : Nat} {thr' : Nat → Option Pend} (h : Waits s u thr') {t : Nat} (e : thr' t = .none) : s.thr t = .none := by
  cases x : s.thr t with
  | none => rfl
  | some p =>
    by_cases hp : p.old = u
    · obtain ⟨p', a, -⟩ := h.gone t p x hp; rw [a] at e; cases e
    · rw [h.same t p x hp] at e; cases e

theorem Waits.rev {s : St} {u : Nat} {thr' : Nat → Option Pend} (h : Waits s u thr') {t : Nat} {p' : Pend} (e : thr' t = some p') :
    ∃ p, s.thr t = some p ∧ p'.size = p.size ∧ p'.kn = p.kn ∧ p'.zero = p.zero ∧ ((p.old ≠ u ∧ p' = p) ∨ (p.old = u ∧ p'.old = 0)) := by
  cases x : s.thr t with
  | none => rw [h.none t x] at e; cases e
  | some p =>
    by_cases hp : p.old = u
    · obtain ⟨p2, a, b, c, d, f⟩ := h.gone t p x hp
      rw [a] at e; cases e
      exact ⟨_, rfl, b, d, f, .inr ⟨hp, c⟩⟩
    · rw [h.same t p x hp] at e; cases e
      exact ⟨_, rfl, rfl, rfl, rfl, .inl ⟨hp, rfl⟩⟩

theorem mem_upd {s : St} {pl pl' : Place} {l : List Rec} {x : Rec} :
    x ∈ upd s.tab pl l pl' ↔ (pl' = pl ∧ x ∈ l) ∨ (pl' ≠ pl ∧ x ∈ s.tab pl') := by
  unfold upd; split <;> simp_all

/-- A record leaves its chain and both blocks go back to the C library. -/
theorem drop_live {s : St} (h : SInv s) {i : Nat} {r : Rec} (hr : r ∈ s.tab (.live i)) {thr' : Nat → Option Pend} (hw : Waits s r.user thr') :
    SInv { s with tab := upd s.tab (.live i) ((s.tab (.live i)).erase r), libc := upd (upd s.libc r.real none) r.node none,
                  own := upd s.own r.user none, thr := thr' } := by
  have hrec := h.recs _ _ hr
  have htab : ∀ pl x, x ∈ upd s.tab (.live i) ((s.tab (.live i)).erase r) pl ↔ x ∈ s.tab pl ∧ x ≠ r := by
    intro pl x
    rw [mem_upd, (h.nd _).mem_erase_iff]
    have := h.uniq
    grind
  have hnd : ∀ pl, (upd s.tab (.live i) ((s.tab (.live i)).erase r) pl).Nodup := by
    intro pl; unfold upd; split
    · exact (h.nd _).erase _
    · exact h.nd _
  have hvar : ∀ t, upd s.tab (.live i) ((s.tab (.live i)).erase r) (.var t) = s.tab (.var t) := by intro t; simp [upd]
  have hd1 : ∀ t, upd s.tab (.live i) ((s.tab (.live i)).erase r) (.d1 t) = s.tab (.d1 t) := by intro t; simp [upd]
  have hd2 : ∀ t, upd s.tab (.live i) ((s.tab (.live i)).erase r) (.d2 t) = s.tab (.d2 t) := by intro t; simp [upd]
  have he : s.ever = false → False := by intro e; rw [(h.ever0 e).1] at hr; cases hr
  have huser := h.own_pos (h.live_own _ _ hr).choose_spec.1
  have hinj : ∀ x : Rec, x.user = r.user ↔ x.real = r.real := by intro x; unfold Rec.user; omega
  have hou := h.own_u
  have hot : ∀ p e, s.own p = some e → e.trk = true → p ≠ r.user → ∃ r' ∈ s.tab (.live (hash p)), r'.user = p ∧ r'.size = e.n ∧ r' ≠ r := by
    intro p e h1 h2 h3
    obtain ⟨r', a, b, c⟩ := h.own_t p e h1 h2
    exact ⟨r', a, b, c, by rintro rfl; exact h3 b.symm⟩
  generalize hT : upd s.tab (.live i) ((s.tab (.live i)).erase r) = T at *
  obtain ⟨c1, c2, c3, c4, c5, c6, c7, c8, c9, c10, c11, c12, c13, c14, c15, c16, c17, c18⟩ := h
  have w0 := @hw.rev_none
  have w1 := @hw.rev
  have w2 := hw.same
  constructor <;> dsimp only <;> (try simp only [htab, hvar, hd1, hd2, upd])
  case nd => exact hnd
  case nochk => exact c16
  case var0 => exact fun t e => c8 t (w0 e)
  case var1 =>
    intro t p' e
    obtain ⟨p, a, b, -⟩ := w1 e
    obtain ⟨x, y, z⟩ := c9 t p a
    exact ⟨x, y, by rw [z, b]⟩
  case zero =>
    intro t p' e hz
    obtain ⟨p, a, b, c, d, f⟩ := w1 e
    have := c18 t p a (by rw [← d]; exact hz)
    grind
  case old =>
    intro t q e ho
    obtain ⟨p, a, b, c, d, ⟨f, rfl⟩ | ⟨-, f⟩⟩ := w1 e
    · have := c13 t q a ho
      rw [if_neg f]; exact this
    · exact absurd f ho
  case busy =>
    intro p e t h1 h2
    split at h1
    · cases h1
    · next hp =>
      obtain ⟨q, a, b⟩ := c12 p e t h1 h2
      exact ⟨q, w2 t q a (by rw [b]; exact hp), b⟩
  all_goals clear w0 w1 w2 c8 c9 c12 c13 c16 c18
  all_goals first | assumption | grind

/-- A record leaves its chain for the list of blocks freed lately. -/
theorem move_live {s : St} (h : SInv s) (hchk : s.chk = true) {i : Nat} {r : Rec} (hr : r ∈ s.tab (.live i)) {thr' : Nat → Option Pend}
    (hw : Waits s r.user thr') :
    SInv { s with tab := upd (upd s.tab (.live i) ((s.tab (.live i)).erase r)) (.d2 i) (r :: s.tab (.d2 i)),
                  own := upd s.own r.user none, thr := thr' } := by
  have hnotd : r ∉ s.tab (.d2 i) := fun hm => by have := (h.uniq _ _ _ _ hr hm (.inl rfl)).1; cases this
  have htab : ∀ pl x, x ∈ upd (upd s.tab (.live i) ((s.tab (.live i)).erase r)) (.d2 i) (r :: s.tab (.d2 i)) pl ↔
      (x ∈ s.tab pl ∧ x ≠ r) ∨ (pl = .d2 i ∧ x = r) := by
    intro pl x
    have := h.uniq
    have hm : x ∈ (s.tab (.live i)).erase r ↔ x ≠ r ∧ x ∈ s.tab (.live i) := (h.nd (.live i)).mem_erase_iff
    simp only [upd]
    grind
  have hnd : ∀ pl, (upd (upd s.tab (.live i) ((s.tab (.live i)).erase r)) (.d2 i) (r :: s.tab (.d2 i)) pl).Nodup := by
    intro pl; simp only [upd]; split
    · exact List.nodup_cons.2 ⟨hnotd, h.nd _⟩
    · split
      · exact (h.nd _).erase _
      · exact h.nd _
  have hvar : ∀ t, upd (upd s.tab (.live i) ((s.tab (.live i)).erase r)) (.d2 i) (r :: s.tab (.d2 i)) (.var t) = s.tab (.var t) := by
    intro t; simp [upd]
  have he : s.ever = false → False := by intro e; rw [(h.ever0 e).1] at hr; cases hr
  have hrec := h.recs _ _ hr
  have huser := h.own_pos (h.live_own _ _ hr).choose_spec.1
  have hinj : ∀ x : Rec, x.user = r.user ↔ x.real = r.real := by intro x; unfold Rec.user; omega
  have hot : ∀ p e, s.own p = some e → e.trk = true → p ≠ r.user → ∃ r' ∈ s.tab (.live (hash p)), r'.user = p ∧ r'.size = e.n ∧ r' ≠ r := by
    intro p e h1 h2 h3
    obtain ⟨r', a, b, c⟩ := h.own_t p e h1 h2
    exact ⟨r', a, b, c, by rintro rfl; exact h3 b.symm⟩
  have hru : ∀ e, s.own r.user = some e → e.trk = true := by
    intro e he'
    obtain ⟨e2, a, b⟩ := h.live_own _ _ hr
    rw [a] at he'; cases he'; exact b
  generalize hT : upd (upd s.tab (.live i) ((s.tab (.live i)).erase r)) (.d2 i) (r :: s.tab (.d2 i)) = T at *
  obtain ⟨c1, c2, c3, c4, c5, c6, c7, c8, c9, c10, c11, c12, c13, c14, c15, c16, c17, c18⟩ := h
  have w0 := @hw.rev_none
  have w1 := @hw.rev
  have w2 := hw.same
  constructor <;> dsimp only <;> (try simp only [htab, hvar, upd])
  case nd => exact hnd
  case nochk => intro e; rw [hchk] at e; cases e
  case var0 => exact fun t e => c8 t (w0 e)
  case var1 =>
    intro t p' e
    obtain ⟨p, a, b, -⟩ := w1 e
    obtain ⟨x, y, z⟩ := c9 t p a
    exact ⟨x, y, by rw [z, b]⟩
  case zero =>
    intro t p' e hz
    obtain ⟨p, a, b, c, d, f⟩ := w1 e
    have := c18 t p a (by rw [← d]; exact hz)
    grind
  case old =>
    intro t q e ho
    obtain ⟨p, a, b, c, d, ⟨f, rfl⟩ | ⟨-, f⟩⟩ := w1 e
    · have := c13 t q a ho
      rw [if_neg f]; exact this
    · exact absurd f ho
  case busy =>
    intro p e t h1 h2
    split at h1
    · cases h1
    · next hp =>
      obtain ⟨q, a, b⟩ := c12 p e t h1 h2
      exact ⟨q, w2 t q a (by rw [b]; exact hp), b⟩
  all_goals clear w0 w1 w2 c8 c9 c12 c13 c16 c18
  case all =>
    intro a n h1
    rcases c15 a n h1 with ⟨pl, x, hx, hx'⟩ | ⟨e, h2, h3⟩
    · by_cases hxr : x = r
      · exact .inl ⟨.d2 i, r, .inr ⟨rfl, rfl⟩, by rw [← hxr]; exact hx'⟩
      · exact .inl ⟨pl, x, .inl ⟨hx, hxr⟩, hx'⟩
    · refine .inr ⟨e, ?_, h3⟩
      rw [if_neg]
      · exact h2
      · rintro rfl
        have := hru e h2
        rw [h3] at this; cases this
  all_goals first | assumption | grind

/-- The checking thread gives a block back. -/
theorem drop_d1 {s : St} (h : SInv s) {i : Nat} {r : Rec} {rs : List Rec} (hr : s.tab (.d1 i) = r :: rs) :
    SInv { s with tab := upd s.tab (.d1 i) rs, libc := upd (upd s.libc r.real none) r.node none } := by
  have hm : r ∈ s.tab (.d1 i) := by rw [hr]; simp
  have hnd0 := h.nd (.d1 i)
  rw [hr, List.nodup_cons] at hnd0
  have htab : ∀ pl x, x ∈ upd s.tab (.d1 i) rs pl ↔ x ∈ s.tab pl ∧ x ≠ r := by
    intro pl x
    rw [mem_upd]
    have := h.uniq
    grind
  have hnd : ∀ pl, (upd s.tab (.d1 i) rs pl).Nodup := by
    intro pl; unfold upd; split
    · exact hnd0.2
    · exact h.nd _
  have hvar : ∀ t, upd s.tab (.d1 i) rs (.var t) = s.tab (.var t) := by intro t; simp [upd]
  have hchk : s.chk = false → False := by intro e; rw [(h.nochk e i).1] at hr; cases hr
  have he : s.ever = false → False := by intro e; rw [(h.ever0 e).1] at hr; cases hr
  have hrec := h.recs _ _ hm
  have hlive : ∀ j x, x ∈ s.tab (.live j) → x ≠ r := by
    rintro j x hx rfl
    have := (h.uniq _ _ _ _ hx hm (.inl rfl)).1; cases this
  generalize hT : upd s.tab (.d1 i) rs = T at *
  obtain ⟨c1, c2, c3, c4, c5, c6, c7, c8, c9, c10, c11, c12, c13, c14, c15, c16, c17, c18⟩ := h
  constructor <;> dsimp only <;> (try simp only [htab, hvar, upd])
  case nd => exact hnd
  case nochk => exact fun e => (hchk e).elim
  case own_t =>
    intro p e h1 h2
    obtain ⟨x, a, b⟩ := c10 p e h1 h2
    exact ⟨x, ⟨a, hlive _ _ a⟩, b⟩
  all_goals clear hchk
  all_goals first | assumption | grind

/-- The younger list becomes the older one. -/
theorem shift {s : St} (h : SInv s) {i : Nat} (hr : s.tab (.d1 i) = []) :
    SInv { s with tab := upd (upd s.tab (.d1 i) (s.tab (.d2 i))) (.d2 i) [] } := by
  have htab : ∀ pl x, x ∈ upd (upd s.tab (.d1 i) (s.tab (.d2 i))) (.d2 i) [] pl ↔
      (pl = .d1 i ∧ x ∈ s.tab (.d2 i)) ∨ (pl ≠ .d1 i ∧ pl ≠ .d2 i ∧ x ∈ s.tab pl) := by
    intro pl x
    simp only [upd]
    split
    · simp_all
    · split <;> simp_all
  have hnd : ∀ pl, (upd (upd s.tab (.d1 i) (s.tab (.d2 i))) (.d2 i) [] pl).Nodup := by
    intro pl; simp only [upd]; split
    · simp
    · split <;> exact h.nd _
  have hvar : ∀ t, upd (upd s.tab (.d1 i) (s.tab (.d2 i))) (.d2 i) [] (.var t) = s.tab (.var t) := by intro t; simp [upd]
  have hch : ∀ t, s.chk = false → upd (upd s.tab (.d1 i) (s.tab (.d2 i))) (.d2 i) [] (.d1 t) = [] ∧
      upd (upd s.tab (.d1 i) (s.tab (.d2 i))) (.d2 i) [] (.d2 t) = [] := by
    intro t e
    have := h.nochk e
    simp [upd, this]
  have hev : s.ever = false → ∀ pl, upd (upd s.tab (.d1 i) (s.tab (.d2 i))) (.d2 i) [] pl = [] := by
    intro e pl
    have := (h.ever0 e).1
    simp [upd, this]
  have hno : ∀ x, x ∉ s.tab (.d1 i) := by rw [hr]; simp
  generalize hT : upd (upd s.tab (.d1 i) (s.tab (.d2 i))) (.d2 i) [] = T at *
  obtain ⟨c1, c2, c3, c4, c5, c6, c7, c8, c9, c10, c11, c12, c13, c14, c15, c16, c17, c18⟩ := h
  constructor <;> dsimp only <;> (try simp only [htab, hvar])
  case nd => exact hnd
  case nochk => exact fun e t => hch t e
  case ever0 => exact fun e => ⟨hev e, (c17 e).2⟩
  case all =>
    intro a n h1
    rcases c15 a n h1 with ⟨pl, x, hx, hx'⟩ | hx
    · left
      by_cases h1 : pl = .d2 i
      · exact ⟨.d1 i, x, .inl ⟨rfl, h1 ▸ hx⟩, hx'⟩
      · by_cases h2 : pl = .d1 i
        · rw [h2] at hx; exact absurd hx (hno x)
        · exact ⟨pl, x, .inr ⟨h2, h1, hx⟩, hx'⟩
    · exact .inr hx
  all_goals clear hch hev
  all_goals first | assumption | grind

/-- A new block and its record; the block given to `realloc` is marked. -/
theorem alloc_inv {s : St} (h : SInv s) {t n : Nat} {node real : Nat} {q : Pend} (ht : s.thr t = none) (hst : s.started = true) (hq : q.size = n)
    (hf1 : Fresh s.libc node nodeSize) (hf2 : Fresh (upd s.libc node (some nodeSize)) real (n + 16))
    (hold : q.old = 0 ∧ q.kn = 0 ∨ ∃ e, s.own q.old = some e ∧ e.busy = none ∧ q.kn = e.n) (hz : q.zero = true → q.old = 0) :
    SInv { s with libc := upd (upd s.libc node (some nodeSize)) real (some (n + 16)), tab := upd s.tab (.var t) [⟨node, real, n⟩],
                  thr := upd s.thr t (some q), own := if q.old = 0 then s.own else s.give q.old t } := by
  obtain ⟨f1, -, -, f2⟩ := hf1
  obtain ⟨g1, -, -, g2⟩ := hf2
  have hv := h.var0 t ht
  have hne : node ≠ real := by
    have := g2 node nodeSize (by simp [upd])
    omega
  have hln : s.libc node = none := by
    cases e : s.libc node with
    | none => rfl
    | some x => have := f2 _ _ e; omega
  have hlr : s.libc real = none := by
    cases e : s.libc real with
    | none => rfl
    | some x => have := g2 real x (by simp [upd, Ne.symm hne, e]); omega
  have g3 : ∀ b m, s.libc b = some m → real + (n + 16) < b ∨ b + m < real := by
    intro b m e
    exact g2 b m (by unfold upd; rw [if_neg]; exact e; rintro rfl; rw [hln] at e; cases e)
  have g4 : real + (n + 16) < node ∨ node + nodeSize < real := g2 node nodeSize (by simp [upd])
  have htab : ∀ pl x, x ∈ upd s.tab (.var t) [⟨node, real, n⟩] pl ↔ x ∈ s.tab pl ∨ (pl = .var t ∧ x = ⟨node, real, n⟩) := by
    intro pl x
    rw [mem_upd]
    simp only [List.mem_singleton]
    have hv' : ∀ x, x ∉ s.tab (.var t) := by rw [hv]; simp
    grind
  have hnd : ∀ pl, (upd s.tab (.var t) [⟨node, real, n⟩] pl).Nodup := by
    intro pl; unfold upd; split
    · simp
    · exact h.nd _
  have hvar : ∀ t', upd s.tab (.var t) [⟨node, real, n⟩] (.var t') = if t' = t then [⟨node, real, n⟩] else s.tab (.var t') := by
    intro t'; simp [upd]
  have hd : ∀ i, upd s.tab (.var t) [⟨node, real, n⟩] (.d1 i) = s.tab (.d1 i) ∧ upd s.tab (.var t) [⟨node, real, n⟩] (.d2 i) = s.tab (.d2 i) := by
    intro i; simp [upd]
  have hev : s.ever = false → False := by intro e; rw [(h.ever0 e).2.1] at hst; cases hst
  -- the new map of the program's blocks
  have hown : ∀ p, (∀ e, (if q.old = 0 then s.own else s.give q.old t) p = some e → ∃ e', s.own p = some e' ∧ e'.n = e.n ∧ e'.trk = e.trk ∧
        ((p ≠ q.old ∧ e = e') ∨ (p = q.old ∧ q.old ≠ 0 ∧ e.busy = some t ∧ q.kn = e.n))) ∧
      (∀ e', s.own p = some e' → ∃ e, (if q.old = 0 then s.own else s.give q.old t) p = some e ∧ e'.n = e.n ∧ e'.trk = e.trk ∧
        ((p ≠ q.old ∧ e = e') ∨ (p = q.old ∧ q.old ≠ 0 ∧ e.busy = some t ∧ q.kn = e.n))) := by
    intro p
    rcases hold with ⟨h0, -⟩ | ⟨e0, h0, h1, h2⟩
    · simp only [h0, if_true]
      constructor
      · intro e he; exact ⟨e, he, rfl, rfl, .inl ⟨h.own_pos he, rfl⟩⟩
      · intro e he; exact ⟨e, he, rfl, rfl, .inl ⟨h.own_pos he, rfl⟩⟩
    · have hp := h.own_pos h0
      simp only [if_neg hp, St.give, h0, upd]
      constructor
      · intro e he
        split at he
        · next hx => cases he; subst hx; exact ⟨e0, h0, rfl, rfl, .inr ⟨rfl, hp, rfl, h2⟩⟩
        · next hx => exact ⟨e, he, rfl, rfl, .inl ⟨hx, rfl⟩⟩
      · intro e he
        split
        · next hx => subst hx; rw [h0] at he; cases he; exact ⟨_, rfl, rfl, rfl, .inr ⟨rfl, hp, rfl, h2⟩⟩
        · next hx => exact ⟨e, he, rfl, rfl, .inl ⟨hx, rfl⟩⟩
  have hou : ∀ p e, s.own p = some e → e.trk = false → p ≠ node ∧ p ≠ real := by
    intro p e h1 h2
    have := (h.own_u p e h1 h2).1
    grind
  generalize hO : (if q.old = 0 then s.own else s.give q.old t) = O at *
  have hO1 : ∀ p e, O p = some e → ∃ e', s.own p = some e' ∧ e'.n = e.n ∧ e'.trk = e.trk ∧
        ((p ≠ q.old ∧ e = e') ∨ (p = q.old ∧ q.old ≠ 0 ∧ e.busy = some t ∧ q.kn = e.n)) := fun p => (hown p).1
  have hO2 : ∀ p e', s.own p = some e' → ∃ e, O p = some e ∧ e'.n = e.n ∧ e'.trk = e.trk ∧
        ((p ≠ q.old ∧ e = e') ∨ (p = q.old ∧ q.old ≠ 0 ∧ e.busy = some t ∧ q.kn = e.n)) := fun p => (hown p).2
  have hoo : q.old ≠ 0 → ∃ e', s.own q.old = some e' ∧ e'.busy = none := by
    intro hq'; rcases hold with ⟨h0, -⟩ | ⟨e0, h0, h1, h2⟩
    · exact absurd h0 hq'
    · exact ⟨e0, h0, h1⟩
  have hz' : q.zero = true → q.old = 0 ∧ q.kn = 0 := by
    intro e; rcases hold with ⟨h0, h1⟩ | ⟨e0, h0, h1, h2⟩
    · exact ⟨h0, h1⟩
    · exact absurd (hz e) (h.own_pos h0)
  clear hown hO hold hz
  generalize hT : upd s.tab (.var t) [⟨node, real, n⟩] = T at *
  obtain ⟨c1, c2, c3, c4, c5, c6, c7, c8, c9, c10, c11, c12, c13, c14, c15, c16, c17, c18⟩ := h
  constructor <;> dsimp only <;> (try simp only [htab, hvar, hd, upd])
  case nd => exact hnd
  case nochk => exact c16
  case ever0 => exact fun e => (hev e).elim
  case apart => clear hO1 hO2 htab hvar hd; grind
  case pos => clear hO1 hO2 htab hvar hd; grind
  case var0 => clear hO1 hO2 htab hd; grind
  case var1 =>
    intro t' p e
    split at e
    · next hx => cases e; exact ⟨⟨node, real, n⟩, by rw [if_pos hx], hq.symm⟩
    · next hx => rw [if_neg hx]; exact c9 t' p e
  case own_t =>
    intro p e h1 h2
    obtain ⟨e', a, b, c, -⟩ := hO1 p e h1
    obtain ⟨r, x, y, z⟩ := c10 p e' a (by rw [c]; exact h2)
    exact ⟨r, .inl x, y, by rw [z, b]⟩
  case own_u =>
    intro p e h1 h2
    obtain ⟨e', a, b, c, -⟩ := hO1 p e h1
    obtain ⟨x, y⟩ := c11 p e' a (by rw [c]; exact h2)
    have := hou p e' a (by rw [c]; exact h2)
    refine ⟨by rw [if_neg this.2, if_neg this.1, x, b], ?_⟩
    rintro pl r (hr | ⟨rfl, rfl⟩)
    · exact y pl r hr
    · exact ⟨Ne.symm this.1, Ne.symm this.2⟩
  case busy =>
    intro p e t' h1 h2
    obtain ⟨e', a, b, c, d⟩ := hO1 p e h1
    rcases d with ⟨d1, rfl⟩ | ⟨d1, d2, d3, -⟩
    · obtain ⟨q', x, y⟩ := c12 p e t' a h2
      refine ⟨q', ?_, y⟩
      rw [if_neg]; exact x; rintro rfl; rw [ht] at x; cases x
    · rw [d3] at h2; cases h2
      exact ⟨q, by simp, d1.symm⟩
  case old =>
    intro t' q' e ho
    split at e
    · next hx =>
      cases e
      obtain ⟨e', a, -⟩ := hoo ho
      obtain ⟨e2, a2, -, -, d⟩ := hO2 _ _ a
      rcases d with ⟨d, -⟩ | ⟨-, -, d, d2⟩
      · exact absurd rfl d
      · exact ⟨e2, a2, by rw [hx]; exact d, d2⟩
    · next hx =>
      obtain ⟨e', a, b, c⟩ := c13 t' q' e ho
      obtain ⟨e2, a2, n2, -, d⟩ := hO2 _ _ a
      rcases d with ⟨d, rfl⟩ | ⟨d, d', -, -⟩
      · exact ⟨e2, a2, b, c⟩
      · obtain ⟨e3, a3, b3⟩ := hoo d'
        rw [← d, a] at a3; cases a3
        rw [b] at b3; cases b3
  case live_own =>
    rintro i r (hr | ⟨hr, -⟩)
    · obtain ⟨e, a, b⟩ := c14 i r hr
      obtain ⟨e2, a2, -, b2, -⟩ := hO2 _ _ a
      exact ⟨e2, a2, by rw [← b2]; exact b⟩
    · cases hr
  case all =>
    intro a m h1
    split at h1
    · next hx => exact .inl ⟨.var t, _, .inr ⟨rfl, rfl⟩, .inr hx⟩
    · split at h1
      · next hx => exact .inl ⟨.var t, _, .inr ⟨rfl, rfl⟩, .inl hx⟩
      · rcases c15 a m h1 with ⟨pl, x, hx, hx'⟩ | ⟨e, h2, h3⟩
        · exact .inl ⟨pl, x, .inl hx, hx'⟩
        · obtain ⟨e2, a2, -, b2, -⟩ := hO2 _ _ h2
          exact .inr ⟨e2, a2, by rw [← b2]; exact h3⟩
  case zero =>
    intro t' p e hz
    split at e
    · cases e; exact hz' hz
    · exact c18 t' p e hz
  all_goals clear hO1 hO2 hoo hz' hou c8 c9 c12 c13 c14 c10 c11 c15 c16 c17 c18
  all_goals first | assumption | grind

end Kasync.MDbg
