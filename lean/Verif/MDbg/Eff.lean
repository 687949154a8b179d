import Verif.MDbg.Mem

/-! # Debugging allocator: what a step does, written out -/

namespace Kasync.MDbg

def Retired (s s' : St) (r : Rec) (m : Nat → UInt8) : Prop :=
  intact s.mem r = true ∧ s'.mem = (if s.chk then fill m r.user r.size (fun _ => 0xee) else m) ∧
  s'.tab = (if s.chk then upd (upd s.tab (.live (hash r.user)) ((s.tab (.live (hash r.user))).erase r)) (.d2 (hash r.user)) (r :: s.tab (.d2 (hash r.user)))
        else upd s.tab (.live (hash r.user)) ((s.tab (.live (hash r.user))).erase r)) ∧ s'.own = upd s.own r.user none

def Eff (s s' : St) (op : Op) : Prop :=
  match op with
  | .start => s'.thr = s.thr ∧ s'.tab = s.tab ∧ s'.own = s.own ∧ s'.mem = s.mem
  | .alloc t q node real _ _ => s.thr t = none ∧ q.size ≠ 0 ∧ s.started = true ∧
      s'.thr = upd s.thr t (some ⟨q.old, q.size, q.zero, fun i => s.mem (q.old + i), s.size q.old⟩) ∧
      s'.tab = upd s.tab (.var t) [⟨node, real, q.size⟩] ∧ s'.own = s.give q.old t ∧ (q.old ≠ 0 → Has s q.old) ∧ (q.old = 0 → s'.own = s.own ∧ s.size q.old = 0) ∧
      (∀ i, i < 8 → s'.mem (real + i) = startMagic i) ∧ (∀ i, i < 8 → s'.mem (real + 8 + q.size + i) = endMagic i)
  | .unlink t b _ => ∃ p r, s.thr t = some p ∧ s.tab (.var t) = [r] ∧ r.size = p.size ∧ p.old ≠ 0 ∧
      ((∃ h, find s p.old = some h ∧ h.user = p.old ∧ h ∈ s.tab (.live (hash p.old)) ∧ h.size = p.kn ∧ s'.thr = upd s.thr t (some { p with old := 0 }) ∧
          Retired s s' h (fill s.mem r.user (min h.size p.size) (fun i => s.mem (p.old + i)))) ∨
       (find s p.old = none ∧ s'.thr = upd s.thr t none ∧ s'.tab = upd s.tab (.var t) [] ∧
          s'.own = upd (upd s.own p.old none) b (some { n := p.size, trk := false }) ∧
          (∀ i, i < p.size → i < p.kn → s'.mem (b + i) = s.mem (p.old + i))))
  | .link t => ∃ p r, s.thr t = some p ∧ s.tab (.var t) = [r] ∧ r.size = p.size ∧ p.old = 0 ∧
      s'.tab = upd (upd s.tab (.var t) []) (.live (hash r.user)) (r :: s.tab (.live (hash r.user))) ∧ s'.thr = upd s.thr t none ∧
      s'.mem = (if p.zero then fill s.mem r.user p.size (fun _ => 0) else s.mem) ∧ s'.own = upd s.own r.user (some { n := p.size, trk := true })
  | .plain q b _ => s.started = false ∧ s'.thr = s.thr ∧ s'.tab = s.tab ∧
      ((q.old = 0 ∧ s'.own = upd s.own b (some { n := q.size, trk := false }) ∧ (q.zero = true → ∀ i, i < q.size → s'.mem (b + i) = 0)) ∨
       (q.old ≠ 0 ∧ q.size = 0 ∧ s'.own = upd s.own q.old none) ∨
       (q.old ≠ 0 ∧ q.size ≠ 0 ∧ s'.own = upd (upd s.own q.old none) b (some { n := q.size, trk := false }) ∧
          ∀ i, i < q.size → i < s.size q.old → s'.mem (b + i) = s.mem (q.old + i)))
  | .free p => s'.thr = s.thr ∧ ((∃ h, find s p = some h ∧ h.user = p ∧ h ∈ s.tab (.live (hash p)) ∧ Retired s s' h s.mem) ∨
      (find s p = none ∧ s'.tab = s.tab ∧ s'.own = upd s.own p none))
  | .write x v => s'.thr = s.thr ∧ s'.tab = s.tab ∧ s'.own = s.own ∧ s'.mem = upd s.mem x v
  | .sweep i => s.chk = true ∧ (∀ r ∈ s.tab (.d1 i), intact s.mem r = true ∧ untouched s.mem r = true) ∧ s'.thr = s.thr ∧ s'.own = s.own ∧ s'.mem = s.mem ∧
      s'.tab = upd (upd s.tab (.d1 i) (s.tab (.d2 i))) (.d2 i) []
  | .dumpBegin _ => s'.thr = s.thr ∧ s'.tab = s.tab ∧ s'.own = s.own ∧ s'.mem = s.mem
  | .dumpEnd _ => s'.thr = s.thr ∧ s'.tab = s.tab ∧ s'.own = s.own ∧ s'.mem = s.mem

theorem size_zero {s : St} (h : SInv s) : s.size 0 = 0 ∧ ∀ t, s.give 0 t = s.own := by
  have : s.own 0 = none := by
    cases e : s.own 0 with
    | none => rfl
    | some x => exact absurd rfl (h.own_pos e)
  simp [St.size, St.give, this]

theorem step_eff {W : St → Nat → Prop} {s s' : St} (h : SInv s) {op : Op} (hc : Client W s op) (hs : step s op = .ok s') :
    Eff s s' op ∧ s'.chk = s.chk := by
  cases op with
  | start =>
    have h0 := h.ever0 hc
    have ht : clearTab s.tab = s.tab := by
      funext pl; cases pl <;> simp [h0.1, clearTab]
    cases hs
    exact ⟨⟨rfl, ht, rfl, rfl⟩, rfl⟩
  | alloc t q node real j1 j2 =>
    dsimp only [Client] at hc
    simp only [step] at hs
    split at hs
    · cases hs
    next ht =>
    split at hs
    · cases hs
    next hst =>
    split at hs
    · cases hs
    cases hs
    refine ⟨⟨ht, by omega, by cases x : s.started <;> simp_all, ?_, rfl, ?_, ?_, ?_, ?_, ?_⟩, rfl⟩
    · dsimp only [libcMalloc]
      by_cases h0 : q.old = 0
      · rw [if_pos h0, h0, (size_zero h).1]
      · rw [if_neg h0]
    · dsimp only
      by_cases h0 : q.old = 0
      · rw [if_pos h0, h0, (size_zero h).2]
      · rw [if_neg h0]
    · intro h0; exact hc.2.resolve_left h0
    · intro h0; dsimp only; rw [if_pos h0]; exact ⟨rfl, by rw [h0, (size_zero h).1]⟩
    · intro i hi
      dsimp only
      rw [fill_out (by omega), fill_out (by omega), fill_in hi]
    · intro i hi
      dsimp only
      rw [fill_in hi]
  | unlink t b j =>
    simp only [step] at hs
    split at hs
    · next p r ht hr =>
      have hsz : r.size = p.size := by
        obtain ⟨r', a, c⟩ := h.var1 t p ht
        rw [hr] at a; cases a; exact c
      split at hs
      · cases hs
      next h0 =>
      obtain ⟨e, ho, hb, hk⟩ := h.old t p ht h0
      split at hs
      · next x hx =>
        obtain ⟨h1, h2⟩ := find_some hx
        have hw := Waits.one h ht h0
        rw [← h2] at hw
        have h3 : x.size = p.kn := by
          obtain ⟨y, hy, -, hz⟩ := h.find_own hx
          rw [ho] at hy; cases hy; rw [hz, hk]
        rcases retire_inv h h1 hw (fill s.mem r.user (min x.size p.size) (fun i => s.mem (p.old + i))) with ⟨-, e⟩ | ⟨g, s2, e, -, e2, e3, e4, e5, e6, -⟩
        · rw [h2, hs] at e; cases e
        · rw [h2, hs] at e; cases e
          rw [← h2] at e5
          exact ⟨⟨p, r, ht, hr, hsz, h0, .inl ⟨x, hx, h2, h1, h3, e2, g, e4, e5, e3⟩⟩, e6⟩
      · next hx =>
        have hm : r ∈ s.tab (.var t) := by rw [hr]; simp
        rw [h.freePtr hm (s' := { s with tab := upd s.tab (.var t) [] }) rfl] at hs
        have hu := h.own_u _ e ho (h.find_untracked hx ho)
        have hne := hu.2 _ r hm
        have hl : upd (upd s.libc r.real none) r.node none p.old = some e.n := by
          rw [upd_ne (Ne.symm hne.1), upd_ne (Ne.symm hne.2)]; exact hu.1
        simp only [libcRealloc, hl] at hs
        cases hs
        refine ⟨⟨p, r, ht, hr, hsz, h0, .inr ⟨hx, rfl, rfl, rfl, ?_⟩⟩, rfl⟩
        intro i hi hi'
        dsimp only
        rw [fill_in hi, if_pos (by omega)]
    · cases hs
  | link t =>
    simp only [step] at hs
    split at hs
    · next p r ht hr =>
      have hsz : r.size = p.size := by
        obtain ⟨r', a, c⟩ := h.var1 t p ht
        rw [hr] at a; cases a; exact c
      split at hs
      · cases hs
      next h0 =>
      cases hs
      exact ⟨⟨p, r, ht, hr, hsz, by simpa using h0, rfl, rfl, rfl, rfl⟩, rfl⟩
    · cases hs
  | plain q b j =>
    dsimp only [Client] at hc
    simp only [step] at hs
    split at hs
    · cases hs
    next hst =>
    have hst : s.started = false := by simpa using hst
    split at hs
    · next h0 =>
      cases hs
      refine ⟨⟨hst, rfl, rfl, .inl ⟨h0, rfl, ?_⟩⟩, rfl⟩
      intro hz i hi
      dsimp only
      rw [if_pos hz, fill_in hi]
    · next h0 =>
      obtain ⟨e, h1, h2, h3⟩ := hc.2.resolve_left h0
      have hu := h.own_u _ e h1 h3
      split at hs
      · next hz =>
        simp only [libcFree, if_neg h0, hu.1] at hs
        cases hs
        exact ⟨⟨hst, rfl, rfl, .inr (.inl ⟨h0, hz, rfl⟩)⟩, rfl⟩
      · next hz =>
        simp only [libcRealloc, hu.1] at hs
        cases hs
        refine ⟨⟨hst, rfl, rfl, .inr (.inr ⟨h0, hz, rfl, ?_⟩)⟩, rfl⟩
        intro i hi hi'
        have : s.size q.old = e.n := by simp [St.size, h1]
        dsimp only
        rw [fill_in hi, if_pos (by omega)]
  | free p =>
    dsimp only [Client] at hc
    simp only [step] at hs
    split at hs
    · next r hr =>
      obtain ⟨h1, h2⟩ := find_some hr
      obtain ⟨x, hx, -⟩ := h.find_own hr
      have hp := h.own_pos hx
      obtain ⟨e, h3, h4⟩ := hc.resolve_left hp
      have hw := Waits.refl h h3 h4
      rw [← h2] at hw
      rcases retire_inv h h1 hw s.mem with ⟨-, e⟩ | ⟨g, s2, e, -, e2, e3, e4, e5, e6, -⟩
      · rw [h2, hs] at e; cases e
      · rw [h2, hs] at e; cases e
        rw [← h2] at e5
        exact ⟨⟨e2, .inl ⟨r, hr, h2, h1, g, e4, e5, e3⟩⟩, e6⟩
    · next hr =>
      unfold libcFree at hs
      split at hs
      · next s1 h1 =>
        split at h1
        · cases h1; cases hs; exact ⟨⟨rfl, .inr ⟨hr, rfl, rfl⟩⟩, rfl⟩
        · split at h1 <;> cases h1
          cases hs; exact ⟨⟨rfl, .inr ⟨hr, rfl, rfl⟩⟩, rfl⟩
      · next hne => exact (hne _ hs).elim
  | write x v => cases hs; exact ⟨⟨rfl, rfl, rfl, rfl⟩, rfl⟩
  | sweep i =>
    simp only [step] at hs
    split at hs
    · next hc =>
      rcases sweep_inv h rfl (i := i) with ⟨-, e⟩ | ⟨g, s2, e, h1, h2, h3, h4, h5, h6, h7, h8⟩
      · rw [e] at hs; cases hs
      · rw [e] at hs; cases hs
        refine ⟨⟨hc, g, h4, h5, h3, ?_⟩, h6⟩
        funext pl
        dsimp only
        by_cases a : pl = .d2 i
        · subst a; rw [upd_same, upd_same]
        · rw [upd_ne a, upd_ne a]
          by_cases b : pl = .d1 i
          · subst b; rw [upd_same, upd_same]; exact h8 _ (by simp)
          · rw [upd_ne b, upd_ne b]; exact h8 _ b
    · cases hs
  | dumpBegin t =>
    simp only [step] at hs
    split at hs <;> cases hs
    exact ⟨⟨rfl, rfl, rfl, rfl⟩, rfl⟩
  | dumpEnd t =>
    simp only [step] at hs
    split at hs <;> cases hs
    exact ⟨⟨rfl, rfl, rfl, rfl⟩, rfl⟩

/-- The block a step is about. -/
def Uses (s : St) (op : Op) (p : Nat) : Prop :=
  match op with
  | .unlink t _ _ => ∃ q, s.thr t = some q ∧ q.old ≠ 0 ∧ q.old = p
  | .plain q _ _ => q.old ≠ 0 ∧ q.old = p
  | .free p' => p' = p
  | _ => False

theorem reach_rec {W : St → Nat → Prop} {s : St} (h : SInv s) {op : Op} (he : Env s op) (hc : Client W s op) {pl : Place} {r : Rec} (hr : r ∈ s.tab pl) {x : Nat} (h1 : r.real ≤ x)
    (h2 : x < r.real + r.size + 16) (hx : Reach s op x) :
    (∃ v, op = .write x v) ∨ (r.user ≤ x ∧ x < r.user + r.size ∧
      ((∃ t, pl = .var t ∧ (op = .link t ∨ ∃ b j, op = .unlink t b j)) ∨ (∃ i, pl = .live i ∧ Uses s op r.user))) ∨
    (∃ t b j q, pl = .var t ∧ op = .unlink t b j ∧ s.thr t = some q ∧ find s q.old = none) := by
  have hl := h.recs _ _ hr
  cases op with
  | start => exact hx.elim
  | alloc t q node real j1 j2 =>
    dsimp only [Reach, Env] at hx he
    have a1 := he.1.2.2.2 _ _ hl.2
    have hne : r.real ≠ node := by rintro rfl; omega
    have a2 := he.2.2.2.2 r.real (r.size + 16) (by rw [upd_ne hne]; exact hl.2)
    omega
  | unlink t b j =>
    dsimp only [Reach, Env] at hx he
    obtain ⟨p, y, ht, hy, h0, (⟨g, hg, a⟩ | ⟨hg, a⟩)⟩ := hx
    · have hm : y ∈ s.tab (.var t) := by rw [hy]; simp
      obtain ⟨g1, g2⟩ := find_some hg
      right; left
      rcases a with a | a
      · by_cases e : r = y
        · subst e
          exact ⟨a.1, a.2, .inl ⟨t, (h.uniq _ _ _ _ hr hm (.inl rfl)).1, .inr ⟨b, j, rfl⟩⟩⟩
        · have := h.recs_apart hr hm e
          unfold Rec.user at a; omega
      · by_cases e : r = g
        · subst e
          exact ⟨a.1, a.2, .inr ⟨_, (h.uniq _ _ _ _ hr g1 (.inl rfl)).1, p, ht, h0, g2.symm⟩⟩
        · have := h.recs_apart hr g1 e
          unfold Rec.user at a; omega
    · have hm : y ∈ s.tab (.var t) := by rw [hy]; simp
      by_cases e : r = y
      · subst e
        exact .inr (.inr ⟨t, b, j, p, (h.uniq _ _ _ _ hr hm (.inl rfl)).1, rfl, ht, hg⟩)
      · exfalso
        obtain ⟨e1, ho, hb, -⟩ := h.old t p ht h0
        have hu := (h.own_u _ e1 ho (h.find_untracked hg ho)).2 _ _ hr
        have n1 : r.real ≠ y.real := fun e' => e (h.uniq _ _ _ _ hr hm (.inl e')).2
        have n2 : r.real ≠ y.node := fun e' => h.sep _ _ _ _ hm hr e'.symm
        have := (he p y ht hy hg).2.2.2 r.real (r.size + 16) (by rw [upd_ne hu.2, upd_ne n2, upd_ne n1]; exact hl.2)
        omega
  | link t =>
    dsimp only [Reach] at hx
    obtain ⟨y, hy, a⟩ := hx
    have hm : y ∈ s.tab (.var t) := by rw [hy]; simp
    right; left
    by_cases e : r = y
    · subst e
      exact ⟨a.1, a.2, .inl ⟨t, (h.uniq _ _ _ _ hr hm (.inl rfl)).1, .inl rfl⟩⟩
    · have := h.recs_apart hr hm e
      unfold Rec.user at a; omega
  | plain q b j =>
    dsimp only [Reach, Env, Client] at hx he hc
    have hn : q.old ≠ 0 → r.real ≠ q.old := by
      intro h0
      obtain ⟨e, a, b, c⟩ := hc.2.resolve_left h0
      exact ((h.own_u _ _ a c).2 _ _ hr).2
    split at he
    · have := he.2.2.2 _ _ hl.2; omega
    · next h0 =>
      have := he.2.2.2 r.real (r.size + 16) (by rw [upd_ne (hn h0)]; exact hl.2)
      omega
  | free p =>
    dsimp only [Reach] at hx
    obtain ⟨g, hg, a⟩ := hx
    obtain ⟨g1, g2⟩ := find_some hg
    right; left
    by_cases e : r = g
    · subst e
      exact ⟨a.1, a.2, .inr ⟨_, (h.uniq _ _ _ _ hr g1 (.inl rfl)).1, g2.symm⟩⟩
    · have := h.recs_apart hr g1 e
      unfold Rec.user at a; omega
  | write y v => cases hx; exact .inl ⟨v, rfl⟩
  | sweep i => exact hx.elim
  | dumpBegin t => exact hx.elim
  | dumpEnd t => exact hx.elim

theorem reach_own {W : St → Nat → Prop} {s : St} (h : SInv s) {op : Op} (he : Env s op) (hc : Client W s op) {p : Nat} {e : Ent} (ho : s.own p = some e)
    {x : Nat} (h1 : p ≤ x) (h2 : x < p + e.n) (hx : Reach s op x) : (∃ v, op = .write x v) ∨ Uses s op p := by
  cases ht : e.trk
  rotate_left
  · obtain ⟨r, hr, e1, e2, -⟩ := h.rec_of ho ht
    have e3 : r.user = p := e1
    rcases reach_rec h he hc hr (by omega) (by omega) hx with a | ⟨-, -, ⟨t, a, -⟩ | ⟨i, -, a⟩⟩ | ⟨t, b, j, q, a, -⟩
    · exact .inl a
    · cases a
    · rw [e3] at a; exact .inr a
    · cases a
  have hl := h.own_u _ _ ho ht
  cases op with
  | start => exact hx.elim
  | alloc t q node real j1 j2 =>
    dsimp only [Reach, Env] at hx he
    have a1 := he.1.2.2.2 _ _ hl.1
    have hne : p ≠ node := by rintro rfl; omega
    have a2 := he.2.2.2.2 p e.n (by rw [upd_ne hne]; exact hl.1)
    omega
  | unlink t b j =>
    dsimp only [Reach, Env] at hx he
    obtain ⟨q, y, hq, hy, h0, a⟩ := hx
    have hm : y ∈ s.tab (.var t) := by rw [hy]; simp
    right
    rcases a with ⟨g, hg, a⟩ | ⟨hg, a⟩
    · exfalso
      have b1 := h.untracked_apart hm ho ht
      have b2 := h.untracked_apart (find_some hg).1 ho ht
      unfold Rec.user at a
      omega
    · by_cases hp : p = q.old
      · exact ⟨q, hq, h0, hp.symm⟩
      · exfalso
        have hne := hl.2 _ _ hm
        have := (he q y hq hy hg).2.2.2 p e.n (by rw [upd_ne hp, upd_ne (Ne.symm hne.1), upd_ne (Ne.symm hne.2)]; exact hl.1)
        omega
  | link t =>
    obtain ⟨y, hy, a⟩ := hx
    have hm : y ∈ s.tab (.var t) := by rw [hy]; simp
    have b1 := h.untracked_apart hm ho ht
    unfold Rec.user at a
    omega
  | plain q b j =>
    dsimp only [Reach, Env] at hx he
    right
    split at he
    · have := he.2.2.2 _ _ hl.1; omega
    · next h0 =>
      by_cases hp : p = q.old
      · exact ⟨h0, hp.symm⟩
      · have := he.2.2.2 p e.n (by rw [upd_ne hp]; exact hl.1)
        omega
  | free q =>
    obtain ⟨g, hg, a⟩ := hx
    have b2 := h.untracked_apart (find_some hg).1 ho ht
    unfold Rec.user at a
    omega
  | write y v => cases hx; exact .inl ⟨v, rfl⟩
  | sweep i => exact hx.elim
  | dumpBegin t => exact hx.elim
  | dumpEnd t => exact hx.elim

end Kasync.MDbg
