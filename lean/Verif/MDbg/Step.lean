import Verif.MDbg.Struct2

/-! # Debugging allocator: every step keeps the structural invariant, and none is undefined -/

namespace Kasync.MDbg

theorem upd_same {α β : Type} [DecidableEq α] {f : α → β} {a : α} {b : β} : upd f a b a = b := by simp [upd]
theorem upd_ne {α β : Type} [DecidableEq α] {f : α → β} {a x : α} {b : β} (h : x ≠ a) : upd f a b x = f x := by simp [upd, h]

/-- Both blocks of a record are there: `free_ptr` does its work. -/
theorem freePtr_ok {s : St} {r : Rec} {n m : Nat} (h1 : s.libc r.real = some n) (h2 : s.libc r.node = some m) (h3 : r.node ≠ r.real)
    (p1 : r.real ≠ 0) (p2 : r.node ≠ 0) :
    freePtr s r = .ok { s with libc := upd (upd s.libc r.real none) r.node none } := by
  simp [freePtr, libcFree, h1, p1, p2, upd, h3, h2]

theorem SInv.freePtr {s : St} (h : SInv s) {pl : Place} {r : Rec} (hr : r ∈ s.tab pl) {s' : St} (hl : s'.libc = s.libc) :
    freePtr s' r = .ok { s' with libc := upd (upd s'.libc r.real none) r.node none } := by
  obtain ⟨a, b⟩ := h.recs _ _ hr
  have p1 := h.pos _ _ a
  have p2 := h.pos _ _ b
  exact freePtr_ok (by rw [hl]; exact b) (by rw [hl]; exact a) (h.sep _ _ _ _ hr hr) (by omega) (by omega)

theorem Waits.refl {s : St} (h : SInv s) {p : Nat} {e : Ent} (he : s.own p = some e) (hb : e.busy = Option.none) : Waits s p s.thr := by
  refine ⟨fun _ _ a _ => a, fun t q a b => ?_, fun _ a => a⟩
  have := h.own_pos he
  obtain ⟨x, c, d, -⟩ := h.old t q a (by rw [b]; exact this)
  rw [b, he] at c; cases c; rw [hb] at d; cases d

theorem Waits.one {s : St} (h : SInv s) {t : Nat} {q : Pend} (ht : s.thr t = some q) (h0 : q.old ≠ 0) :
    Waits s q.old (upd s.thr t (some { q with old := 0 })) := by
  obtain ⟨e, he, hb, -⟩ := h.old t q ht h0
  refine ⟨fun t' q' a b => ?_, fun t' q' a b => ?_, fun t' a => ?_⟩
  · rw [upd_ne]; exact a; rintro rfl; rw [ht] at a; cases a; exact b rfl
  · by_cases e1 : t' = t
    · subst e1; rw [ht] at a; cases a; exact ⟨_, upd_same, rfl, rfl, rfl, rfl⟩
    · obtain ⟨x, c, d, -⟩ := h.old t' q' a (by rw [b]; exact h0)
      rw [b, he] at c; cases c; rw [hb] at d; cases d; exact absurd rfl e1
  · rw [upd_ne]; exact a; rintro rfl; rw [ht] at a; cases a

/-- What becomes of a block found in its chain. -/
theorem retire_inv {s : St} (h : SInv s) {r : Rec} {i : Nat} (hr : r ∈ s.tab (.live i)) {thr' : Nat → Option Pend} (hw : Waits s r.user thr')
    (m : Nat → UInt8) :
    (intact s.mem r = false ∧ retire { s with thr := thr', own := upd s.own r.user none } i r m = .abort) ∨
    (intact s.mem r = true ∧ ∃ s', retire { s with thr := thr', own := upd s.own r.user none } i r m = .ok s' ∧ SInv s' ∧
      s'.thr = thr' ∧ s'.own = upd s.own r.user none ∧ s'.mem = (if s.chk then fill m r.user r.size (fun _ => 0xee) else m) ∧
      s'.tab = (if s.chk then upd (upd s.tab (.live i) ((s.tab (.live i)).erase r)) (.d2 i) (r :: s.tab (.d2 i))
        else upd s.tab (.live i) ((s.tab (.live i)).erase r)) ∧ s'.chk = s.chk ∧ s'.started = s.started) := by
  unfold retire
  cases hi : intact s.mem r
  · left; simp [hi]
  · right
    refine ⟨rfl, ?_⟩
    dsimp only
    rw [if_pos rfl]
    by_cases hc : s.chk = true
    rotate_left
    · have hf := h.freePtr hr (s' := { s with thr := thr', own := upd s.own r.user none, tab := upd s.tab (.live i) ((s.tab (.live i)).erase r), mem := m }) rfl
      rw [if_neg hc]
      simp only [if_neg hc]
      exact ⟨_, hf, (drop_live h hr hw).mem m, rfl, rfl, rfl, rfl, rfl, rfl⟩
    · rw [if_pos hc]
      simp only [if_pos hc]
      refine ⟨_, rfl, ?_, rfl, rfl, rfl, ?_, rfl, rfl⟩
      · have := (move_live h hc hr hw).mem (fill m r.user r.size (fun _ => 0xee))
        simpa [upd] using this
      · simp [upd]

/-- The loop of the checking thread. -/
theorem sweep_inv {i : Nat} : ∀ {l : List Rec} {s : St}, SInv s → s.tab (.d1 i) = l →
    ((∃ r ∈ l, intact s.mem r = false ∨ untouched s.mem r = false) ∧ sweepList i l s = .abort) ∨
    ((∀ r ∈ l, intact s.mem r = true ∧ untouched s.mem r = true) ∧ ∃ s', sweepList i l s = .ok s' ∧ SInv s' ∧ s'.tab (.d1 i) = [] ∧
      s'.mem = s.mem ∧ s'.thr = s.thr ∧ s'.own = s.own ∧ s'.chk = s.chk ∧ s'.started = s.started ∧ (∀ pl, pl ≠ .d1 i → s'.tab pl = s.tab pl)) := by
  intro l
  induction l with
  | nil => intro s h hl; exact .inr ⟨by simp, s, rfl, h, hl, rfl, rfl, rfl, rfl, rfl, fun _ _ => rfl⟩
  | cons r rs ih =>
    intro s h hl
    have hm : r ∈ s.tab (.d1 i) := by rw [hl]; simp
    have hf := h.freePtr hm (s' := { s with tab := upd s.tab (.d1 i) rs }) rfl
    have hinv := drop_d1 h hl
    cases hg : intact s.mem r && untouched s.mem r
    · left
      refine ⟨⟨r, by simp, ?_⟩, ?_⟩
      · cases x : intact s.mem r
        · exact .inl rfl
        · rw [x] at hg; exact .inr (by simpa using hg)
      · simp [sweepList, hg]
    · have hg' : intact s.mem r = true ∧ untouched s.mem r = true := by simpa using hg
      have hr : sweepList i (r :: rs) s = sweepList i rs { s with tab := upd s.tab (.d1 i) rs, libc := upd (upd s.libc r.real none) r.node none } := by
        simp only [sweepList, hg, if_true, hf]
      rw [hr]
      rcases ih hinv upd_same with ⟨⟨x, hx, hx'⟩, he⟩ | ⟨hx, s', he, h1, h2, h3, h4, h5, h6, h7, h8⟩
      · exact .inl ⟨⟨x, by simp [hx], hx'⟩, he⟩
      · refine .inr ⟨?_, s', he, h1, h2, h3, h4, h5, h6, h7, fun pl hp => ?_⟩
        · intro y hy
          rcases List.mem_cons.1 hy with rfl | hy
          · exact hg'
          · exact hx y hy
        · rw [h8 pl hp]; exact upd_ne hp

theorem Req.want_size {q : Req} (h : q.want < 2 ^ 64) : q.size = q.want := by
  cases q with
  | malloc n => rfl
  | calloc c n => exact Nat.mod_eq_of_lt h
  | realloc p n => rfl

theorem Req.zero_old {q : Req} (h : q.zero = true) : q.old = 0 := by
  cases q <;> simp_all [Req.zero, Req.old]

theorem give_some {s : St} {p t : Nat} {e : Ent} (h : s.own p = some e) : s.give p t = upd s.own p (some { e with busy := some t }) := by
  simp [St.give, h]

/-- Nothing is undefined, and the invariant is kept. -/
theorem step_sinv {W : St → Nat → Prop} {s : St} (h : SInv s) {op : Op} (hc : Client W s op) (he : Env s op) :
    step s op = .disabled ∨ step s op = .abort ∨ ∃ s', step s op = .ok s' ∧ SInv s' := by
  cases op with
  | start =>
    right; right
    refine ⟨_, rfl, ?_⟩
    have h0 := h.ever0 hc
    obtain ⟨c1, c2, c3, c4, c5, c6, c7, c8, c9, c10, c11, c12, c13, c14, c15, c16, c17, c18⟩ := h
    have ht : clearTab s.tab = s.tab := by
      funext pl; cases pl <;> simp [h0.1, clearTab]
    rw [ht]
    constructor <;> dsimp only <;> first | assumption | (intro e; cases e)
  | alloc t q node real j1 j2 =>
    dsimp only [Client, Env] at hc he
    cases ht : s.thr t with
    | some x => left; simp [step, ht]
    | none =>
      simp only [step, ht]
      split
      · exact .inl rfl
      next hst =>
      have hsz := Req.want_size (q := q) (by omega)
      rw [if_neg (by omega)]
      right; right
      refine ⟨_, rfl, ?_⟩
      have hst' : s.started = true := by cases x : s.started <;> simp_all
      refine (alloc_inv h ht hst' (n := q.size) rfl he.1 he.2 ?_ Req.zero_old).mem _
      rcases hc.2 with h0 | ⟨e, h1, h2⟩
      · left; simp [h0]
      · have := h.own_pos h1
        right; exact ⟨e, h1, h2, by simp [this, St.size, h1]⟩
  | unlink t b j =>
    dsimp only [Env] at he
    simp only [step]
    split
    · next p r ht hr =>
      split
      · exact .inl rfl
      next h0 =>
      split
      · next x hx =>
        obtain ⟨h1, h2⟩ := find_some hx
        have hw := Waits.one h ht h0
        rw [← h2] at hw
        rcases retire_inv h h1 hw (fill s.mem r.user (min x.size p.size) (fun i => s.mem (p.old + i))) with ⟨-, e⟩ | ⟨-, s', e, e1, -⟩
        · rw [h2] at e; exact .inr (.inl e)
        · rw [h2] at e; exact .inr (.inr ⟨s', e, e1⟩)
      · next hx =>
        have hm : r ∈ s.tab (.var t) := by rw [hr]; simp
        rw [h.freePtr hm (s' := { s with tab := upd s.tab (.var t) [] }) rfl]
        obtain ⟨e, ho, hb, -⟩ := h.old t p ht h0
        have hu := h.own_u _ e ho (h.find_untracked hx ho)
        have hne := hu.2 _ r hm
        have hl : upd (upd s.libc r.real none) r.node none p.old = some e.n := by
          rw [upd_ne (Ne.symm hne.1), upd_ne (Ne.symm hne.2)]; exact hu.1
        simp only [libcRealloc, hl]
        right; right
        refine ⟨_, rfl, ?_⟩
        exact (new_inv (abandon_inv h ht hr h0 hx) (he p r ht hr hx)).mem _
    · exact .inl rfl
  | link t =>
    simp only [step]
    split
    · next p r ht hr =>
      split
      · exact .inl rfl
      next h0 =>
      right; right
      exact ⟨_, rfl, (link_inv h ht hr (by simpa using h0)).mem _⟩
    · exact .inl rfl
  | plain q b j =>
    dsimp only [Client, Env] at hc he
    simp only [step]
    split
    · exact .inl rfl
    split
    · next h0 =>
      rw [if_pos h0] at he
      right; right
      exact ⟨_, rfl, (new_inv h he).mem _⟩
    · next h0 =>
      rw [if_neg h0] at he
      obtain ⟨e, h1, h2, h3⟩ := hc.2.resolve_left h0
      have hu := h.own_u _ e h1 h3
      split
      · simp only [libcFree, if_neg h0, hu.1]
        right; right
        exact ⟨_, rfl, free_inv h h1 h3 h2⟩
      · simp only [libcRealloc, hu.1]
        right; right
        exact ⟨_, rfl, (new_inv (free_inv h h1 h3 h2) he).mem _⟩
  | free p =>
    dsimp only [Client] at hc
    simp only [step]
    split
    · next r hr =>
      obtain ⟨h1, h2⟩ := find_some hr
      obtain ⟨x, hx, -⟩ := h.find_own hr
      have hp := h.own_pos hx
      obtain ⟨e, h3, h4⟩ := hc.resolve_left hp
      have hw := Waits.refl h h3 h4
      rw [← h2] at hw
      rcases retire_inv h h1 hw s.mem with ⟨-, e⟩ | ⟨-, s', e, e1, -⟩
      · rw [h2] at e; exact .inr (.inl e)
      · rw [h2] at e; exact .inr (.inr ⟨s', e, e1⟩)
    · next hr =>
      right; right
      rcases hc with rfl | ⟨e, h3, h4⟩
      · refine ⟨_, rfl, ?_⟩
        have : upd s.own 0 none = s.own := by
          funext x; unfold upd; split
          · next hx =>
            subst hx
            cases y : s.own 0 with
            | none => rfl
            | some z => exact absurd rfl (h.own_pos y)
          · rfl
        rw [this]; exact h
      · have hu := h.own_u _ e h3 (h.find_untracked hr h3)
        simp only [libcFree, if_neg (h.own_pos h3), hu.1]
        exact ⟨_, rfl, free_inv h h3 (h.find_untracked hr h3) h4⟩
  | write x v => exact .inr (.inr ⟨_, rfl, h.mem _⟩)
  | sweep i =>
    simp only [step]
    split
    · rcases sweep_inv h rfl (i := i) with ⟨-, e⟩ | ⟨-, s', e, h1, h2, -⟩
      · rw [e]; exact .inr (.inl rfl)
      · rw [e]; exact .inr (.inr ⟨_, rfl, shift h1 h2⟩)
    · exact .inl rfl
  | dumpBegin t =>
    simp only [step]
    split
    · exact .inl rfl
    · right; right
      refine ⟨_, rfl, ?_⟩
      obtain ⟨c1, c2, c3, c4, c5, c6, c7, c8, c9, c10, c11, c12, c13, c14, c15, c16, c17, c18⟩ := h
      constructor <;> dsimp only <;> (try assumption)
      intro e
      refine ⟨(c17 e).1, rfl, fun t' => ?_⟩
      unfold upd; split
      · rw [(c17 e).2.1]; simp
      · exact (c17 e).2.2 t'
  | dumpEnd t =>
    simp only [step]
    split
    · next b hb =>
      right; right
      refine ⟨_, rfl, ?_⟩
      obtain ⟨c1, c2, c3, c4, c5, c6, c7, c8, c9, c10, c11, c12, c13, c14, c15, c16, c17, c18⟩ := h
      constructor <;> dsimp only <;> (try assumption)
      intro e
      refine ⟨(c17 e).1, ?_, fun t' => ?_⟩
      · cases b
        · rfl
        · exact absurd hb ((c17 e).2.2 t)
      · unfold upd; split
        · simp
        · exact (c17 e).2.2 t'
    · exact .inl rfl

theorem Hist.sinv {W : St → Nat → Prop} {c : Bool} {s : St} (h : Hist W c s) : SInv s := by
  induction h with
  | init m => exact sinv_init c m
  | step op _ hc he hs ih =>
    rcases step_sinv ih hc he with e | e | ⟨s', e, h⟩ <;> rw [hs] at e <;> cases e
    exact h

end Kasync.MDbg
