import Verif.MDbg.Data

/-! # Debugging allocator: the guard bytes while the program keeps to its blocks -/

namespace Kasync.MDbg

theorem intact_iff {m : Nat → UInt8} {r : Rec} :
    intact m r = true ↔ (∀ i, i < 8 → m (r.real + i) = startMagic i) ∧ ∀ i, i < 8 → m (r.user + r.size + i) = endMagic i := by
  unfold intact
  rw [Bool.and_eq_true, List.all_eq_true, List.all_eq_true]
  simp only [List.mem_range, beq_iff_eq]

theorem untouched_iff {m : Nat → UInt8} {r : Rec} : untouched m r = true ↔ ∀ i, i < r.size → m (r.user + i) = 0xee := by
  unfold untouched
  rw [List.all_eq_true]
  simp only [List.mem_range, beq_iff_eq]

structure Good (s : St) : Prop where
  guard : ∀ pl r, r ∈ s.tab pl → intact s.mem r = true
  kept1 : ∀ i r, r ∈ s.tab (.d1 i) → untouched s.mem r = true
  kept2 : ∀ i r, r ∈ s.tab (.d2 i) → untouched s.mem r = true

/-- Where a record was before. -/
theorem rec_cases {W : St → Nat → Prop} {s s' : St} (h : SInv s) {op : Op} (hc : Client W s op) (hs : step s op = .ok s') {pl : Place} {r : Rec}
    (hr : r ∈ s'.tab pl) :
    (r ∈ s.tab pl ∧ ¬ ∃ t b j q, pl = .var t ∧ op = .unlink t b j ∧ s.thr t = some q ∧ find s q.old = none) ∨
    (∃ t q node real j1 j2, op = .alloc t q node real j1 j2 ∧ pl = .var t ∧ r = ⟨node, real, q.size⟩ ∧ intact s'.mem r = true) ∨
    (∃ t i, op = .link t ∧ r ∈ s.tab (.var t) ∧ pl = .live i) ∨
    (∃ i, pl = .d2 i ∧ r ∈ s.tab (.live i) ∧ untouched s'.mem r = true) ∨
    (∃ i, pl = .d1 i ∧ r ∈ s.tab (.d2 i) ∧ op = .sweep i) := by
  have hR : ∀ g m, Retired s s' g m → g ∈ s.tab (.live (hash g.user)) → r ∈ s.tab pl ∨ ∃ i, pl = .d2 i ∧ r ∈ s.tab (.live i) ∧ untouched s'.mem r = true := by
    rintro g m ⟨-, e1, e2, -⟩ hg
    rw [e2] at hr
    by_cases hchk : s.chk = true
    · rw [if_pos hchk] at hr e1
      by_cases a : pl = .d2 (hash g.user)
      · subst a
        rw [upd_same] at hr
        rcases List.mem_cons.1 hr with rfl | hr
        · refine .inr ⟨_, rfl, hg, untouched_iff.2 fun i hi => ?_⟩
          rw [e1, fill_in hi]
        · exact .inl hr
      · rw [upd_ne a] at hr
        by_cases b : pl = .live (hash g.user)
        · subst b; rw [upd_same] at hr; exact .inl (List.mem_of_mem_erase hr)
        · rw [upd_ne b] at hr; exact .inl hr
    · rw [if_neg hchk] at hr
      by_cases b : pl = .live (hash g.user)
      · subst b; rw [upd_same] at hr; exact .inl (List.mem_of_mem_erase hr)
      · rw [upd_ne b] at hr; exact .inl hr
  obtain ⟨hE, -⟩ := step_eff h hc hs
  cases op with
  | start | write | dumpBegin | dumpEnd => obtain ⟨e1, e2, -⟩ := hE; rw [e2] at hr; exact .inl ⟨hr, by simp⟩
  | plain => obtain ⟨-, e1, e2, -⟩ := hE; rw [e2] at hr; exact .inl ⟨hr, by simp⟩
  | sweep i =>
    obtain ⟨-, -, -, -, -, e2⟩ := hE
    rw [e2] at hr
    by_cases a : pl = .d2 i
    · subst a; rw [upd_same] at hr; cases hr
    · rw [upd_ne a] at hr
      by_cases b : pl = .d1 i
      · subst b; rw [upd_same] at hr; exact .inr (.inr (.inr (.inr ⟨i, rfl, hr, rfl⟩)))
      · rw [upd_ne b] at hr; exact .inl ⟨hr, by simp⟩
  | free p =>
    obtain ⟨e1, ⟨g, -, g2, g1, e2⟩ | ⟨-, e2, -⟩⟩ := hE
    · rw [← g2] at g1
      rcases hR _ _ e2 g1 with a | a
      · exact .inl ⟨a, by simp⟩
      · exact .inr (.inr (.inr (.inl a)))
    · rw [e2] at hr; exact .inl ⟨hr, by simp⟩
  | alloc t' rq node real j1 j2 =>
    obtain ⟨a1, a2, a3, e1, e2, e3, e4, e5, e6, e7⟩ := hE
    rw [e2] at hr
    by_cases hh : pl = .var t'
    · subst hh
      rw [upd_same] at hr
      have : r = ⟨node, real, rq.size⟩ := by simpa using hr
      subst this
      exact .inr (.inl ⟨t', rq, node, real, j1, j2, rfl, rfl, rfl, intact_iff.2 ⟨e6, e7⟩⟩)
    · rw [upd_ne hh] at hr; exact .inl ⟨hr, by simp⟩
  | link t' =>
    obtain ⟨p, y, a1, a2, a3, a4, e1, e2, -⟩ := hE
    rw [e1] at hr
    by_cases b : pl = .live (hash y.user)
    · subst b; rw [upd_same] at hr
      rcases List.mem_cons.1 hr with rfl | hr
      · exact .inr (.inr (.inl ⟨t', _, rfl, by rw [a2]; simp, rfl⟩))
      · exact .inl ⟨hr, by simp⟩
    · rw [upd_ne b] at hr
      by_cases a : pl = .var t'
      · subst a; rw [upd_same] at hr; cases hr
      · rw [upd_ne a] at hr; exact .inl ⟨hr, by simp⟩
  | unlink t' b j =>
    obtain ⟨p, y, a1, a2, a3, a4, ⟨g, hf, g2, g1, g3, e1, e2⟩ | ⟨-, e1, e2, -⟩⟩ := hE
    · rw [← g2] at g1
      rcases hR _ _ e2 g1 with a | a
      · refine .inl ⟨a, ?_⟩
        rintro ⟨t, b', j', q, -, e, b1, b2⟩
        cases e
        rw [a1] at b1; cases b1; rw [hf] at b2; cases b2
      · exact .inr (.inr (.inr (.inl a)))
    · rw [e2] at hr
      by_cases a : pl = .var t'
      · subst a; rw [upd_same] at hr; cases hr
      · rw [upd_ne a] at hr
        refine .inl ⟨hr, ?_⟩
        rintro ⟨t, b', j', q, rfl, e, -⟩
        cases e; exact a rfl

/-- A write in bounds does not touch the bytes around a block. -/
theorem inbounds_guard {s : St} (h : SInv s) {pl : Place} {r : Rec} (hr : r ∈ s.tab pl) {x : Nat} (h1 : r.real ≤ x) (h2 : x < r.real + r.size + 16)
    (hx : InBounds s x) : (∃ i, pl = .live i) ∧ r.user ≤ x ∧ x < r.user + r.size := by
  obtain ⟨p, e, ho, -, a, b⟩ := hx
  by_cases hp : r.user = p
  · subst hp
    cases pl with
    | live i =>
      have ht : e.trk = true := by
        obtain ⟨e', c, d⟩ := h.live_own _ _ hr
        rw [ho] at c; cases c; exact d
      obtain ⟨r', c, d, f, -⟩ := h.rec_of ho ht
      have := (h.uniq _ _ _ _ hr c (.inl (by unfold Rec.user at d; omega))).2
      subst this
      exact ⟨⟨i, rfl⟩, a, by omega⟩
    | _ => have := h.not_own hr (by simp); rw [ho] at this; cases this
  · have := h.own_rec_apart ho hr hp
    omega

theorem guard_mem {s s' : St} (h : SInv s) {op : Op} (hc : Client InBounds s op) (he : Env s op) (hs : step s op = .ok s') {pl : Place} {r : Rec}
    (hr : r ∈ s.tab pl) (hn : ¬ ∃ t b j q, pl = .var t ∧ op = .unlink t b j ∧ s.thr t = some q ∧ find s q.old = none) {x : Nat}
    (h1 : r.real ≤ x) (h2 : x < r.real + r.size + 16) (h3 : x < r.user ∨ r.user + r.size ≤ x ∨ (∃ i, pl = .d1 i ∨ pl = .d2 i)) : s'.mem x = s.mem x := by
  refine step_mem h hc hs fun hx => ?_
  rcases reach_rec h he hc hr h1 h2 hx with ⟨v, rfl⟩ | ⟨b1, b2, b3⟩ | a
  · obtain ⟨⟨i, a⟩, b, c⟩ := inbounds_guard h hr h1 h2 hc
    subst a
    rcases h3 with h3 | h3 | ⟨k, h3 | h3⟩ <;> first | omega | cases h3
  · rcases h3 with h3 | h3 | ⟨k, h3 | h3⟩
    · omega
    · omega
    · subst h3; rcases b3 with ⟨t, b3, -⟩ | ⟨t, b3, -⟩ <;> cases b3
    · subst h3; rcases b3 with ⟨t, b3, -⟩ | ⟨t, b3, -⟩ <;> cases b3
  · exact hn a

theorem step_good {s s' : St} (h : SInv s) (g : Good s) {op : Op} (hc : Client InBounds s op) (he : Env s op) (hs : step s op = .ok s') : Good s' := by
  have hin : ∀ pl r, r ∈ s.tab pl → (¬ ∃ t b j q, pl = .var t ∧ op = .unlink t b j ∧ s.thr t = some q ∧ find s q.old = none) → intact s'.mem r = true := by
    intro pl r hr hn
    have h0 := intact_iff.1 (g.guard _ _ hr)
    refine intact_iff.2 ⟨fun i hi => ?_, fun i hi => ?_⟩
    · rw [guard_mem h hc he hs hr hn (by omega) (by omega) (.inl (by unfold Rec.user; omega))]; exact h0.1 i hi
    · rw [guard_mem h hc he hs hr hn (by unfold Rec.user; omega) (by unfold Rec.user; omega) (.inr (.inl (by omega)))]; exact h0.2 i hi
  have hun : ∀ pl r, r ∈ s.tab pl → (∃ i, pl = .d1 i ∨ pl = .d2 i) → untouched s.mem r = true → untouched s'.mem r = true := by
    intro pl r hr hd hu
    have hu := untouched_iff.1 hu
    refine untouched_iff.2 fun i hi => ?_
    rw [guard_mem h hc he hs hr ?_ (by unfold Rec.user; omega) (by unfold Rec.user; omega) (.inr (.inr hd))]
    · exact hu i hi
    · rintro ⟨t, b, j, q, rfl, -⟩; obtain ⟨i, a | a⟩ := hd <;> cases a
  constructor
  · intro pl r hr
    rcases rec_cases h hc hs hr with ⟨a, b⟩ | ⟨t, q, node, real, j1, j2, rfl, rfl, rfl, e⟩ | ⟨t, i, rfl, a, rfl⟩ | ⟨i, rfl, a, -⟩ | ⟨i, rfl, a, rfl⟩
    · exact hin _ _ a b
    · exact e
    · exact hin _ _ a (by simp)
    · exact hin _ _ a (by simp)
    · exact hin _ _ a (by simp)
  · intro k r hr
    rcases rec_cases h hc hs hr with ⟨a, b⟩ | ⟨t, q, node, real, j1, j2, rfl, e, -⟩ | ⟨t, i, rfl, a, e⟩ | ⟨i, e, a, -⟩ | ⟨i, e, a, -⟩
    · exact hun _ _ a ⟨k, .inl rfl⟩ (g.kept1 _ _ a)
    · cases e
    · cases e
    · cases e
    · exact hun _ _ a ⟨i, .inr rfl⟩ (g.kept2 _ _ a)
  · intro k r hr
    rcases rec_cases h hc hs hr with ⟨a, b⟩ | ⟨t, q, node, real, j1, j2, rfl, e, -⟩ | ⟨t, i, rfl, a, e⟩ | ⟨i, e, a, b⟩ | ⟨i, e, a, -⟩
    · exact hun _ _ a ⟨k, .inr rfl⟩ (g.kept2 _ _ a)
    · cases e
    · cases e
    · exact b
    · cases e

theorem Hist.good {c : Bool} {s : St} (h : Hist InBounds c s) : Good s := by
  induction h with
  | init m => constructor <;> simp
  | step op h hc he hs ih => exact step_good h.sinv ih hc he hs

/-- Kept blocks are in the lists of their chain. -/
theorem Hist.home1 {W : St → Nat → Prop} {c : Bool} {s : St} (h : Hist W c s) : ∀ i r, (r ∈ s.tab (.d1 i) ∨ r ∈ s.tab (.d2 i)) → hash r.user = i := by
  induction h with
  | init m => simp
  | step op h hc he hs ih =>
    intro k r hr
    rcases hr with hr | hr
    · rcases rec_cases h.sinv hc hs hr with ⟨a, b⟩ | ⟨t, q, node, real, j1, j2, rfl, e, -⟩ | ⟨t, i, rfl, a, e⟩ | ⟨i, e, a, -⟩ | ⟨i, e, a, -⟩
      · exact ih _ _ (.inl a)
      · cases e
      · cases e
      · cases e
      · cases e; exact ih _ _ (.inr a)
    · rcases rec_cases h.sinv hc hs hr with ⟨a, b⟩ | ⟨t, q, node, real, j1, j2, rfl, e, -⟩ | ⟨t, i, rfl, a, e⟩ | ⟨i, e, a, -⟩ | ⟨i, e, a, -⟩
      · exact ih _ _ (.inr a)
      · cases e
      · cases e
      · cases e; exact h.sinv.home _ _ a
      · cases e

/-- A block a step is not about stays with the program. -/
theorem own_frame {W : St → Nat → Prop} {s s' : St} (h : SInv s) {op : Op} (hc : Client W s op) (he : Env s op) (hs : step s op = .ok s')
    {p : Nat} {e : Ent} (ho : s.own p = some e) (hu : ¬ Uses s op p) : ∃ e', s'.own p = some e' ∧ e'.n = e.n ∧ e'.trk = e.trk := by
  obtain ⟨hE, -⟩ := step_eff h hc hs
  cases op with
  | start | write | dumpBegin | dumpEnd => obtain ⟨e1, e2, e3, -⟩ := hE; exact ⟨e, by rw [e3]; exact ho, rfl, rfl⟩
  | sweep i => obtain ⟨-, -, -, e3, -⟩ := hE; exact ⟨e, by rw [e3]; exact ho, rfl, rfl⟩
  | alloc t q node real j1 j2 =>
    obtain ⟨-, -, -, -, -, e3, -⟩ := hE
    rw [e3]
    cases hx : s.own q.old with
    | none => simp only [St.give, hx]; exact ⟨e, ho, rfl, rfl⟩
    | some x =>
      rw [give_some hx]
      by_cases a : p = q.old
      · subst a; rw [ho] at hx; cases hx; exact ⟨_, upd_same, rfl, rfl⟩
      · exact ⟨e, by rw [upd_ne a]; exact ho, rfl, rfl⟩
  | link t =>
    obtain ⟨q, r, a1, a2, -, -, -, -, -, e3⟩ := hE
    have hm : r ∈ s.tab (.var t) := by rw [a2]; simp
    have hn := h.not_own hm (by simp)
    exact ⟨e, by rw [e3, upd_ne (by rintro rfl; rw [hn] at ho; cases ho)]; exact ho, rfl, rfl⟩
  | free q =>
    obtain ⟨-, ⟨g, -, g2, -, -, -, -, e3⟩ | ⟨-, -, e3⟩⟩ := hE
    · exact ⟨e, by rw [e3, upd_ne (by rintro rfl; exact hu g2.symm)]; exact ho, rfl, rfl⟩
    · exact ⟨e, by rw [e3, upd_ne (by rintro rfl; exact hu rfl)]; exact ho, rfl, rfl⟩
  | plain q b j =>
    have key : ∀ n, (∀ a m, (if q.old = 0 then s.libc else upd s.libc q.old none) a = some m → b + n < a ∨ a + m < b) → (q.old = 0 ∨ p ≠ q.old) → p ≠ b := by
      intro n hf h0
      rintro rfl
      have hf' : ∀ a m, s.libc a = some m → a ≠ q.old → p + n < a ∨ a + m < p := by
        intro a m ha hne
        refine hf a m ?_
        split
        · exact ha
        · rw [upd_ne hne]; exact ha
      cases ht : e.trk
      · have hl := (h.own_u _ _ ho ht).1
        rcases h0 with h0 | h0
        · rw [if_pos h0] at hf; have := hf _ _ hl; omega
        · have := hf' _ _ hl h0; omega
      · obtain ⟨r, h1, h2, h3, -⟩ := h.rec_of ho ht
        have hl := (h.recs _ _ h1).2
        rcases hc.2 with h0 | ⟨x, b1, b2, b3⟩
        · rw [if_pos h0] at hf; have := hf _ _ hl; omega
        · have := hf' _ _ hl (((h.own_u _ _ b1 b3).2 _ _ h1).2); omega
    have hfr := key _ he.2.2.2
    obtain ⟨-, -, -, ⟨h0, e3, -⟩ | ⟨h0, -, e3⟩ | ⟨h0, -, e3, -⟩⟩ := hE
    · exact ⟨e, by rw [e3, upd_ne (hfr (.inl h0))]; exact ho, rfl, rfl⟩
    · have : p ≠ q.old := fun a => hu ⟨h0, a.symm⟩
      exact ⟨e, by rw [e3, upd_ne this]; exact ho, rfl, rfl⟩
    · have : p ≠ q.old := fun a => hu ⟨h0, a.symm⟩
      exact ⟨e, by rw [e3, upd_ne (hfr (.inr this)), upd_ne this]; exact ho, rfl, rfl⟩
  | unlink t b j =>
    obtain ⟨q, r, a1, a2, a3, a4, ⟨g, hf, g2, g1, g3, e1, -, -, -, e3⟩ | ⟨hf, e1, e2, e3, -⟩⟩ := hE
    · have : p ≠ q.old := fun a => hu ⟨q, a1, a4, a.symm⟩
      exact ⟨e, by rw [e3, g2, upd_ne this]; exact ho, rfl, rfl⟩
    · have : p ≠ q.old := fun a => hu ⟨q, a1, a4, a.symm⟩
      have hm : r ∈ s.tab (.var t) := by rw [a2]; simp
      have hF := (he q r a1 a2 hf).2.2.2
      have hpb : p ≠ b := by
        rintro rfl
        obtain ⟨x, b1, b2, -⟩ := h.old t q a1 a4
        have b3 := h.find_untracked hf b1
        cases ht : e.trk
        · have hl := h.own_u _ _ ho ht
          have hne := hl.2 _ _ hm
          have := hF p e.n (by rw [upd_ne this, upd_ne (Ne.symm hne.1), upd_ne (Ne.symm hne.2)]; exact hl.1)
          omega
        · obtain ⟨y, h1, h2, h3, -⟩ := h.rec_of ho ht
          have hl := (h.recs _ _ h1).2
          have n1 := ((h.own_u _ _ b1 b3).2 _ _ h1).2
          have n2 : y.real ≠ r.node := fun e' => h.sep _ _ _ _ hm h1 e'.symm
          have n3 : y.real ≠ r.real := fun e' => by have := (h.uniq _ _ _ _ h1 hm (.inl e')).1; cases this
          have := hF y.real (y.size + 16) (by rw [upd_ne n1, upd_ne n2, upd_ne n3]; exact hl)
          omega
      exact ⟨e, by rw [e3, upd_ne hpb, upd_ne this]; exact ho, rfl, rfl⟩

end Kasync.MDbg
