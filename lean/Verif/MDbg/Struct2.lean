import Verif.MDbg.Struct

/-! # Debugging allocator: the structural invariant is kept, continued -/

namespace Kasync.MDbg

/-- A block without a record is given back. -/
theorem free_inv {s : St} (h : SInv s) {p : Nat} {e : Ent} (he : s.own p = some e) (ht : e.trk = false) (hb : e.busy = none) :
    SInv { s with libc := upd s.libc p none, own := upd s.own p none } := by
  have hu := h.own_u p e he ht
  have hno : ∀ i r, r ∈ s.tab (.live i) → r.user ≠ p := by
    rintro i r hr rfl
    obtain ⟨x, a, b⟩ := h.live_own i r hr
    rw [he] at a; cases a; rw [ht] at b; cases b
  have hq : ∀ t q, s.thr t = some q → q.old ≠ 0 → q.old ≠ p := by
    rintro t q a b rfl
    obtain ⟨x, c, d, -⟩ := h.old t q a b
    rw [he] at c; cases c; rw [hb] at d; cases d
  obtain ⟨c1, c2, c3, c4, c5, c6, c7, c8, c9, c10, c11, c12, c13, c14, c15, c16, c17, c18⟩ := h
  constructor <;> dsimp only <;> (try simp only [upd]) <;> first | assumption | grind

/-- A new block without a record. -/
theorem new_inv {s : St} (h : SInv s) {b n : Nat} (hf : Fresh s.libc b n) :
    SInv { s with libc := upd s.libc b (some n), own := upd s.own b (some { n := n, trk := false }) } := by
  obtain ⟨f1, -, -, f2⟩ := hf
  have ho := h.fresh_own f2
  have hln : s.libc b = none := by
    cases e : s.libc b with
    | none => rfl
    | some x => have := f2 _ _ e; omega
  have hrb : ∀ pl r, r ∈ s.tab pl → r.node ≠ b ∧ r.real ≠ b ∧ r.user ≠ b := by
    intro pl r hr
    have h1 := h.recs pl r hr
    have h2 := f2 _ _ h1.1
    have h3 := f2 _ _ h1.2
    unfold Rec.user
    omega
  obtain ⟨c1, c2, c3, c4, c5, c6, c7, c8, c9, c10, c11, c12, c13, c14, c15, c16, c17, c18⟩ := h
  constructor <;> dsimp only <;> (try simp only [upd])
  case all =>
    intro a m h1
    by_cases hab : a = b
    · exact .inr ⟨_, if_pos hab, rfl⟩
    · rw [if_neg hab] at h1 ⊢; exact c15 a m h1
  all_goals first | assumption | grind

/-- `realloc` finds no record of the old block: the new one is given up, and the old one given back. -/
theorem abandon_inv {s : St} (h : SInv s) {t : Nat} {q : Pend} {r : Rec} (hth : s.thr t = some q) (hr : s.tab (.var t) = [r])
    (h0 : q.old ≠ 0) (hf : find s q.old = none) :
    SInv { s with tab := upd s.tab (.var t) [], libc := upd (upd (upd s.libc r.real none) r.node none) q.old none, thr := upd s.thr t none,
                  own := upd s.own q.old none } := by
  have hm : r ∈ s.tab (.var t) := by rw [hr]; simp
  obtain ⟨e, he, hb, -⟩ := h.old t q hth h0
  have ht := h.find_untracked hf he
  have hu := h.own_u _ e he ht
  have hno : ∀ i r, r ∈ s.tab (.live i) → r.user ≠ q.old := by
    rintro i r hr e2
    obtain ⟨x, a, b⟩ := h.live_own i r hr
    rw [e2, he] at a; cases a; rw [ht] at b; cases b
  have hq : ∀ t' q', s.thr t' = some q' → q'.old ≠ 0 → t' ≠ t → q'.old ≠ q.old := by
    intro t' q' a b c d
    obtain ⟨x, y, z, -⟩ := h.old t' q' a b
    rw [d, he] at y; cases y; rw [hb] at z; cases z; exact c rfl
  have htab : ∀ pl x, x ∈ upd s.tab (.var t) [] pl ↔ x ∈ s.tab pl ∧ x ≠ r := by
    intro pl x
    rw [mem_upd]
    have := h.uniq
    have hv : ∀ x, x ∈ s.tab (.var t) → x = r := by rw [hr]; simp
    grind
  have hnd : ∀ pl, (upd s.tab (.var t) [] pl).Nodup := by
    intro pl; unfold upd; split
    · simp
    · exact h.nd _
  have hvar : ∀ t', upd s.tab (.var t) [] (.var t') = if t' = t then [] else s.tab (.var t') := by intro t'; simp [upd]
  have hd : ∀ i, upd s.tab (.var t) [] (.d1 i) = s.tab (.d1 i) ∧ upd s.tab (.var t) [] (.d2 i) = s.tab (.d2 i) := by intro i; simp [upd]
  have hev : s.ever = false → False := by intro e; rw [(h.ever0 e).1] at hr; cases hr
  have hlive : ∀ j x, x ∈ s.tab (.live j) → x ≠ r := by
    rintro j x hx rfl
    have := (h.uniq _ _ _ _ hx hm (.inl rfl)).1; cases this
  have hrec := h.recs _ _ hm
  have hot : ∀ p e, s.own p = some e → e.trk = true → ∃ r' ∈ s.tab (.live (hash p)), r'.user = p ∧ r'.size = e.n ∧ r' ≠ r := by
    intro p e h1 h2
    obtain ⟨r', a, b, c⟩ := h.own_t p e h1 h2
    exact ⟨r', a, b, c, hlive _ _ a⟩
  generalize hT : upd s.tab (.var t) [] = T at *
  obtain ⟨c1, c2, c3, c4, c5, c6, c7, c8, c9, c10, c11, c12, c13, c14, c15, c16, c17, c18⟩ := h
  constructor <;> dsimp only <;> (try simp only [htab, hvar, hd, upd])
  case nd => exact hnd
  case nochk => exact c16
  case ever0 => exact fun e => (hev e).elim
  case recs => 
    intro pl x ⟨hx, hne⟩
    obtain ⟨a, b⟩ := c3 pl x hx
    have := hu.2 pl x hx
    have := c4 pl (.var t) x r hx hm
    have := c5 pl (.var t) x r hx hm
    have := c5 (.var t) pl r x hm hx
    grind
  case apart =>
    intro a b n m h1 h2
    exact c1 a b n m (by grind) (by grind)
  case pos => intro a n h1; exact c2 a n (by grind)
  all_goals clear c10 c1
  all_goals first | assumption | grind

/-- The new record enters its chain. -/
theorem link_inv {s : St} (h : SInv s) {t : Nat} {q : Pend} {r : Rec} (hth : s.thr t = some q) (hr : s.tab (.var t) = [r]) (h0 : q.old = 0) :
    SInv { s with tab := upd (upd s.tab (.var t) []) (.live (hash r.user)) (r :: s.tab (.live (hash r.user))), thr := upd s.thr t none,
                  own := upd s.own r.user (some { n := q.size, trk := true }) } := by
  have hm : r ∈ s.tab (.var t) := by rw [hr]; simp
  have hsz : r.size = q.size := by
    obtain ⟨r', a, b⟩ := h.var1 t q hth
    rw [hr] at a; cases a; exact b
  have hno := h.not_own hm (by simp)
  have hpos : ∀ p e, s.own p = some e → p ≠ 0 := fun p e => h.own_pos
  have hlive : ∀ j x, x ∈ s.tab (.live j) → x ≠ r := by
    rintro j x hx rfl
    have := (h.uniq _ _ _ _ hx hm (.inl rfl)).1; cases this
  have htab : ∀ pl x, x ∈ upd (upd s.tab (.var t) []) (.live (hash r.user)) (r :: s.tab (.live (hash r.user))) pl ↔
      (x ∈ s.tab pl ∧ x ≠ r) ∨ (pl = .live (hash r.user) ∧ x = r) := by
    intro pl x
    have := h.uniq
    have hv : ∀ x, x ∈ s.tab (.var t) → x = r := by rw [hr]; simp
    simp only [upd]
    grind
  have hnd : ∀ pl, (upd (upd s.tab (.var t) []) (.live (hash r.user)) (r :: s.tab (.live (hash r.user))) pl).Nodup := by
    intro pl; simp only [upd]; split
    · exact List.nodup_cons.2 ⟨fun hx => hlive _ _ hx rfl, h.nd _⟩
    · split
      · simp
      · exact h.nd _
  have hvar : ∀ t', upd (upd s.tab (.var t) []) (.live (hash r.user)) (r :: s.tab (.live (hash r.user))) (.var t') = if t' = t then [] else s.tab (.var t') := by
    intro t'; simp [upd]
  have hd : ∀ i, upd (upd s.tab (.var t) []) (.live (hash r.user)) (r :: s.tab (.live (hash r.user))) (.d1 i) = s.tab (.d1 i) ∧
      upd (upd s.tab (.var t) []) (.live (hash r.user)) (r :: s.tab (.live (hash r.user))) (.d2 i) = s.tab (.d2 i) := by intro i; simp [upd]
  have hev : s.ever = false → False := by intro e; rw [(h.ever0 e).1] at hr; cases hr
  have hrec := h.recs _ _ hm
  generalize hT : upd (upd s.tab (.var t) []) (.live (hash r.user)) (r :: s.tab (.live (hash r.user))) = T at *
  obtain ⟨c1, c2, c3, c4, c5, c6, c7, c8, c9, c10, c11, c12, c13, c14, c15, c16, c17, c18⟩ := h
  constructor <;> dsimp only <;> (try simp only [htab, hvar, hd, upd])
  case nd => exact hnd
  case nochk => exact c16
  case ever0 => exact fun e => (hev e).elim
  case own_t =>
    intro p e h1 h2
    split at h1
    · next hp => cases h1; subst hp; exact ⟨r, .inr ⟨rfl, rfl⟩, rfl, hsz⟩
    · obtain ⟨x, a, b⟩ := c10 p e h1 h2
      exact ⟨x, .inl ⟨a, hlive _ _ a⟩, b⟩
  case live_own =>
    rintro i x (⟨hx, hxr⟩ | ⟨-, rfl⟩)
    · obtain ⟨e, a, b⟩ := c14 i x hx
      by_cases hu : x.user = r.user
      · exact ⟨_, if_pos hu, rfl⟩
      · exact ⟨e, by rw [if_neg hu]; exact a, b⟩
    · exact ⟨_, if_pos rfl, rfl⟩
  case busy =>
    intro p e t' h1 h2
    split at h1
    · cases h1; cases h2
    · obtain ⟨x, a, b⟩ := c12 p e t' h1 h2
      refine ⟨x, ?_, b⟩
      rw [if_neg]; exact a
      rintro rfl
      rw [hth] at a; cases a
      exact hpos p e h1 (by rw [← b, h0])
  case all =>
    intro a n h1
    rcases c15 a n h1 with ⟨pl, x, hx, hx'⟩ | ⟨e, h2, h3⟩
    · left
      by_cases hxr : x = r
      · exact ⟨_, r, .inr ⟨rfl, rfl⟩, by rw [← hxr]; exact hx'⟩
      · exact ⟨pl, x, .inl ⟨hx, hxr⟩, hx'⟩
    · refine .inr ⟨e, ?_, h3⟩
      rw [if_neg]; exact h2; rintro rfl; rw [hno] at h2; cases h2
  all_goals first | assumption | grind

end Kasync.MDbg
