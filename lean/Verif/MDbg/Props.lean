import Verif.MDbg.Guard

/-!
# C62: the debugging allocator

`Hist Sloppy c s`: `s` is reached by a program of any number of threads that frees and resizes only what it has, but may write up to eight
bytes beside its blocks and into blocks it has freed; `Hist InBounds c s`: by one that writes only into its blocks.  `s.own` is what the
program has: address, size, and whether the block was allocated with the hook on (`trk`).
-/

namespace Kasync.MDbg

/-! ## Specification -/

/-- The eight bytes on either side of the block are as they were written. -/
def Guarded (m : Nat → UInt8) (p n : Nat) : Prop :=
  (∀ i, i < 8 → m (p - 8 + i) = startMagic i) ∧ ∀ i, i < 8 → m (p + n + i) = endMagic i

/-- The block at `p` was freed and is kept; the checking thread looks at it when it goes through its chain for the `k`-th time. -/
def Kept (s : St) (p n k : Nat) : Prop :=
  ∃ r, r.user = p ∧ r.size = n ∧ ((k = 1 ∧ r ∈ s.tab (.d1 (hash p))) ∨ (k = 2 ∧ r ∈ s.tab (.d2 (hash p))))

/-- The thread a step belongs to, if it is inside an allocating call. -/
def Op.caller : Op → Option Nat
  | .alloc t _ _ _ _ _ => some t
  | .unlink t _ _ => some t
  | .link t => some t
  | _ => none

/-- What other threads do while `t` is inside a call. -/
inductive During (t : Nat) : St → St → Prop where
  | refl (s : St) : During t s s
  | step {s s1 s2 : St} (op : Op) : During t s s1 → op.caller ≠ some t → Client Sloppy s1 op → Env s1 op → step s1 op = .ok s2 → During t s s2

/-- The block the call frees or resizes. -/
def Takes (s : St) (op : Op) (p : Nat) : Prop :=
  op = .free p ∨ (∃ q b j, op = .plain q b j ∧ q.old ≠ 0 ∧ q.old = p) ∨ ∃ t b j q, op = .unlink t b j ∧ s.thr t = some q ∧ q.old ≠ 0 ∧ q.old = p

theorem guarded_rec {m : Nat → UInt8} {r : Rec} : intact m r = true ↔ Guarded m r.user r.size := by
  rw [intact_iff]
  unfold Guarded Rec.user
  rw [Nat.add_sub_cancel]

/-! ## No undefined behaviour, and when the program is stopped -/

/-- No call frees a block twice, or one the C library does not know: not even if the program damaged the guards or wrote into freed blocks. -/
theorem mdbg_safe {c : Bool} {s : St} (h : Hist Sloppy c s) {op : Op} (hc : Client Sloppy s op) (he : Env s op) : step s op ≠ .ub := by
  rcases step_sinv h.sinv hc he with e | e | ⟨s', e, -⟩ <;> rw [e] <;> simp

/-- The program is stopped exactly when a block with a damaged guard is freed or resized, or the checking thread finds a freed block that
was written to. -/
theorem mdbg_abort_iff {c : Bool} {s : St} (h : Hist Sloppy c s) {op : Op} (hc : Client Sloppy s op) (he : Env s op) :
    step s op = .abort ↔
      (∃ p e, Takes s op p ∧ s.own p = some e ∧ e.trk = true ∧ ¬ Guarded s.mem p e.n) ∨
      (c = true ∧ ∃ i p n, op = .sweep i ∧ hash p = i ∧ Kept s p n 1 ∧ ¬ (Guarded s.mem p n ∧ ∀ k, k < n → s.mem (p + k) = 0xee)) := by
  have hi := h.sinv
  have key : ∀ {p : Nat} {r : Rec} {e : Ent}, find s p = some r → s.own p = some e → (intact s.mem r = false ↔ e.trk = true ∧ ¬ Guarded s.mem p e.n) := by
    intro p r e hf ho
    obtain ⟨e', h1, h2, h3⟩ := hi.find_own hf
    rw [ho] at h1; cases h1
    have h4 := (find_some hf).2
    rw [← h3, ← h4, ← guarded_rec]
    simp [h2]
  have keptk : ∀ i, (∃ r ∈ s.tab (.d1 i), intact s.mem r = false ∨ untouched s.mem r = false) ↔
      ∃ p n, hash p = i ∧ Kept s p n 1 ∧ ¬ (Guarded s.mem p n ∧ ∀ k, k < n → s.mem (p + k) = 0xee) := by
    intro i
    constructor
    · rintro ⟨r, hr, hb⟩
      have hh := h.home1 _ _ (.inl hr)
      refine ⟨r.user, r.size, hh, ⟨r, rfl, rfl, .inl ⟨rfl, by rw [hh]; exact hr⟩⟩, ?_⟩
      rw [← guarded_rec, ← untouched_iff]
      rintro ⟨a, b⟩
      rw [a, b] at hb
      simp at hb
    · rintro ⟨p, n, rfl, ⟨r, rfl, rfl, ⟨-, hr⟩ | ⟨e, -⟩⟩, hb⟩
      · refine ⟨r, hr, ?_⟩
        rw [← guarded_rec, ← untouched_iff] at hb
        cases x : intact s.mem r
        · exact .inl rfl
        · right
          cases y : untouched s.mem r
          · rfl
          · exact absurd ⟨x, y⟩ hb
      · cases e
  have none : ∀ {op : Op}, (∀ p e, Takes s op p → s.own p = some e → e.trk = false) → (∀ i, op ≠ .sweep i) → step s op ≠ .abort →
      (step s op = .abort ↔ (∃ p e, Takes s op p ∧ s.own p = some e ∧ e.trk = true ∧ ¬ Guarded s.mem p e.n) ∨
      (c = true ∧ ∃ i p n, op = .sweep i ∧ hash p = i ∧ Kept s p n 1 ∧ ¬ (Guarded s.mem p n ∧ ∀ k, k < n → s.mem (p + k) = 0xee))) := by
    intro op h1 h2 h3
    constructor
    · intro e; exact absurd e h3
    · rintro (⟨p, e, a, b, d, -⟩ | ⟨-, i, p, n, a, -⟩)
      · rw [h1 p e a b] at d; cases d
      · exact absurd a (h2 i)
  cases op with
  | start => exact none (by simp [Takes]) (by simp) (by simp [step])
  | alloc t q node real j1 j2 =>
    refine none (by simp [Takes]) (by simp) ?_
    simp only [step]
    split
    · simp
    · split
      · simp
      · split <;> simp
  | link t =>
    refine none (by simp [Takes]) (by simp) ?_
    simp only [step]
    split
    · split <;> simp
    · simp
  | plain q b j =>
    refine none ?_ (by simp) ?_
    · rintro p e (a | ⟨q', b', j', a, b, rfl⟩ | ⟨t, b', j', q', a, -⟩) ho
      · cases a
      · cases a
        obtain ⟨e', h1, h2, h3⟩ := hc.2.resolve_left b
        rw [ho] at h1; cases h1; exact h3
      · cases a
    · simp only [step]
      split
      · simp
      · split
        · simp
        · next h0 =>
          obtain ⟨e', h1, h2, h3⟩ := hc.2.resolve_left h0
          have hu := hi.own_u _ _ h1 h3
          split
          · simp [libcFree, h0, hu.1]
          · simp [libcRealloc, hu.1]
  | write x v => exact none (by simp [Takes]) (by simp) (by simp [step])
  | dumpBegin t => refine none (by simp [Takes]) (by simp) ?_; simp only [step]; split <;> simp
  | dumpEnd t => refine none (by simp [Takes]) (by simp) ?_; simp only [step]; split <;> simp
  | sweep i =>
    have hchk := h.chk
    constructor
    · intro e
      right
      simp only [step] at e
      split at e
      · next hh =>
        refine ⟨by rw [← hchk]; exact hh, ?_⟩
        rcases sweep_inv hi rfl (i := i) with ⟨g, -⟩ | ⟨-, s2, e2, -⟩
        · obtain ⟨p, n, a, b⟩ := (keptk i).1 g
          exact ⟨i, p, n, rfl, a, b⟩
        · rw [e2] at e; cases e
      · cases e
    · rintro (⟨p, e, a | ⟨q', b', j', a, -⟩ | ⟨t, b', j', q', a, -⟩, -⟩ | ⟨hcc, i', p, n, a, b⟩)
      · cases a
      · cases a
      · cases a
      · cases a
        simp only [step]
        rw [if_pos (by rw [hchk]; exact hcc)]
        rcases sweep_inv hi rfl (i := i) with ⟨-, e2⟩ | ⟨g, -⟩
        · rw [e2]
        · obtain ⟨r, hr, hb⟩ := (keptk i).2 ⟨p, n, b⟩
          have := g r hr
          rw [this.1, this.2] at hb; simp at hb
  | free p =>
    have hT : ∀ p', Takes s (.free p) p' ↔ p' = p := by
      intro p'; simp [Takes, eq_comm]
    simp only [hT]
    simp only [step]
    constructor
    · intro e
      left
      split at e
      · next r hr =>
        obtain ⟨h1, h2⟩ := find_some hr
        obtain ⟨x, hx, -⟩ := hi.find_own hr
        obtain ⟨e1, h3, h4⟩ := (show p = 0 ∨ Has s p from hc).resolve_left (hi.own_pos hx)
        have hw := Waits.refl hi h3 h4
        rw [← h2] at hw
        rcases retire_inv hi h1 hw s.mem with ⟨g, -⟩ | ⟨g, s2, e2, -⟩
        · exact ⟨p, x, rfl, hx, (key hr hx).1 g⟩
        · rw [h2, e] at e2; cases e2
      · unfold libcFree at e
        split at e
        · cases e
        · split at e
          · cases e
          · split at e <;> cases e
    · rintro (⟨p', e1, rfl, h3, h4⟩ | ⟨-, i, p', n, a, -⟩)
      · obtain ⟨r, -, -, -, hr⟩ := hi.rec_of h3 h4.1
        rw [hr]
        obtain ⟨h1, h2⟩ := find_some hr
        obtain ⟨e1', h5, h6⟩ := (show p' = 0 ∨ Has s p' from hc).resolve_left (hi.own_pos h3)
        have hw := Waits.refl hi h5 h6
        rw [← h2] at hw
        have hg := (key hr h3).2 h4
        rcases retire_inv hi h1 hw s.mem with ⟨-, g⟩ | ⟨g, -⟩
        · rw [h2] at g; exact g
        · rw [hg] at g; cases g
      · cases a
  | unlink t b j =>
    constructor
    · intro e
      left
      simp only [step] at e
      split at e
      · next q r ht hr =>
        split at e
        · cases e
        next h0 =>
        obtain ⟨x, ho, hb, -⟩ := hi.old t q ht h0
        split at e
        · next g hg =>
          obtain ⟨h1, h2⟩ := find_some hg
          have hw := Waits.one hi ht h0
          rw [← h2] at hw
          rcases retire_inv hi h1 hw (fill s.mem r.user (min g.size q.size) (fun i => s.mem (q.old + i))) with ⟨g1, -⟩ | ⟨-, s2, e2, -⟩
          · exact ⟨q.old, x, .inr (.inr ⟨t, b, j, q, rfl, ht, h0, rfl⟩), ho, (key hg ho).1 g1⟩
          · rw [h2, e] at e2; cases e2
        · next hg =>
          exfalso
          have hm : r ∈ s.tab (.var t) := by rw [hr]; simp
          rw [hi.freePtr hm (s' := { s with tab := upd s.tab (.var t) [] }) rfl] at e
          dsimp only at e
          unfold libcRealloc at e
          split at e
          · cases e
          · split at e <;> cases e
      · cases e
    · rintro (⟨p, x, a | ⟨q', b', j', a, -⟩ | ⟨t', b', j', q, a, ht, h0, rfl⟩, ho, h4⟩ | ⟨-, i, p', n, a, -⟩)
      · cases a
      · cases a
      · cases a
        obtain ⟨r, hr, -⟩ := hi.var1 t q ht
        obtain ⟨g, -, -, -, hg⟩ := hi.rec_of ho h4.1
        obtain ⟨h1, h2⟩ := find_some hg
        have hw := Waits.one hi ht h0
        rw [← h2] at hw
        have hgg := (key hg ho).2 h4
        simp only [step, ht, hr]
        rw [if_neg h0]
        simp only [hg]
        rcases retire_inv hi h1 hw (fill s.mem r.user (min g.size q.size) (fun i => s.mem (q.old + i))) with ⟨-, g⟩ | ⟨g, -⟩
        · rw [h2] at g; exact g
        · rw [hgg] at g; cases g
      · cases a

/-- A program that writes only into its blocks is never stopped. -/
theorem mdbg_no_false_alarm {c : Bool} {s : St} (h : Hist InBounds c s) {op : Op} (hc : Client InBounds s op) (he : Env s op) :
    step s op ≠ .abort := by
  have hg := h.good
  have hS : Client Sloppy s op := by cases op <;> first | exact hc | exact .inl hc
  rw [Ne, mdbg_abort_iff h.sloppy hS he]
  rintro (⟨p, e, -, ho, ht, hb⟩ | ⟨-, i, p, n, -, rfl, ⟨r, rfl, rfl, ⟨-, hr⟩ | ⟨a, -⟩⟩, hb⟩)
  · obtain ⟨r, h1, h2, h3, -⟩ := h.sinv.rec_of ho ht
    have := guarded_rec.1 (hg.guard _ _ h1)
    have h2 : r.user = p := h2
    rw [h2, h3] at this
    exact hb this
  · exact hb ⟨guarded_rec.1 (hg.guard _ _ hr), untouched_iff.1 (hg.kept1 _ _ hr)⟩
  · cases a

/-! ## The blocks -/

/-- The blocks of the program lie apart, each inside a block of the C library, with eight bytes to spare on both sides if the hook was on. -/
theorem mdbg_blocks {c : Bool} {s : St} (h : Hist Sloppy c s) :
    (∀ p e, s.own p = some e → p ≠ 0 ∧ ∃ a m, s.libc a = some m ∧ a + (if e.trk then 8 else 0) ≤ p ∧ p + e.n + (if e.trk then 8 else 0) ≤ a + m) ∧
    ∀ p e p' e', s.own p = some e → s.own p' = some e' → p ≠ p' → p + e.n < p' ∨ p' + e'.n < p := by
  have hi := h.sinv
  refine ⟨fun p e ho => ⟨hi.own_pos ho, ?_⟩, fun p e p' e' h1 h2 h3 => ?_⟩
  · cases ht : e.trk
    · exact ⟨p, e.n, (hi.own_u _ _ ho ht).1, by simp, by simp⟩
    · obtain ⟨r, h1, h2, h3, -⟩ := hi.rec_of ho ht
      exact ⟨r.real, r.size + 16, (hi.recs _ _ h1).2, by simp; omega, by simp; omega⟩
  · have := hi.own_apart h1 h2 h3
    omega

/-- A step that neither frees nor resizes a block leaves it with the program, and its bytes as they are unless it is a write to them. -/
theorem mdbg_frame {c : Bool} {s s' : St} (h : Hist Sloppy c s) {op : Op} (hc : Client Sloppy s op) (he : Env s op) (hs : step s op = .ok s')
    {p : Nat} {e : Ent} (ho : s.own p = some e) (ht : ¬ Takes s op p) :
    (∃ e', s'.own p = some e' ∧ e'.n = e.n ∧ e'.trk = e.trk) ∧
    ∀ x, p ≤ x → x < p + e.n → (∀ v, op ≠ .write x v) → s'.mem x = s.mem x := by
  have hi := h.sinv
  have hu : ¬ Uses s op p := by
    intro hu
    cases op with
    | unlink t b j => obtain ⟨q, a, b', d⟩ := hu; exact ht (.inr (.inr ⟨t, b, j, q, rfl, a, b', d⟩))
    | plain q b j => exact ht (.inr (.inl ⟨q, b, j, rfl, hu⟩))
    | free p' => cases hu; exact ht (.inl rfl)
    | _ => exact hu.elim
  constructor
  · exact own_frame hi hc he hs ho hu
  · intro x h1 h2 h3
    refine step_mem hi hc hs fun hx => ?_
    rcases reach_own hi he hc ho h1 h2 hx with ⟨v, a⟩ | a
    · exact h3 v a
    · exact hu a

/-- Steps of other threads leave a thread inside `realloc`, its new block and that block's bytes alone. -/
theorem During.keep {c : Bool} {t : Nat} {s s' : St} (d : During t s s') (h : Hist Sloppy c s) (ht : ∃ q, s.thr t = some q) :
    Hist Sloppy c s' ∧ s'.thr t = s.thr t ∧ s'.tab (.var t) = s.tab (.var t) ∧
    ∀ r ∈ s.tab (.var t), ∀ x, r.real ≤ x → x < r.real + r.size + 16 → s'.mem x = s.mem x := by
  induction d with
  | refl => exact ⟨h, rfl, rfl, fun _ _ _ _ _ => rfl⟩
  | @step s1 s2 op d hop hc he hs ih =>
    obtain ⟨i1, i2, i3, i4⟩ := ih
    obtain ⟨q, hq⟩ := ht
    have key : s2.thr t = s1.thr t ∧ s2.tab (.var t) = s1.tab (.var t) := by
      have hr : ∀ r m, Retired s1 s2 r m → s2.tab (.var t) = s1.tab (.var t) := by
        intro r m hm
        rw [hm.2.2.1]
        split
        · rw [upd_ne (by simp), upd_ne (by simp)]
        · rw [upd_ne (by simp)]
      obtain ⟨hE, -⟩ := step_eff i1.sinv hc hs
      cases op with
      | start | write | dumpBegin | dumpEnd => obtain ⟨e1, e2, -⟩ := hE; rw [e1, e2]; exact ⟨rfl, rfl⟩
      | plain => obtain ⟨-, e1, e2, -⟩ := hE; rw [e1, e2]; exact ⟨rfl, rfl⟩
      | sweep i =>
        obtain ⟨-, -, e1, -, -, e2⟩ := hE
        rw [e1, e2, upd_ne (by simp), upd_ne (by simp)]; exact ⟨rfl, rfl⟩
      | free p =>
        obtain ⟨e1, ⟨g, -, -, -, e2⟩ | ⟨-, e2, -⟩⟩ := hE
        · rw [e1]; exact ⟨rfl, hr _ _ e2⟩
        · rw [e1, e2]; exact ⟨rfl, rfl⟩
      | alloc t' rq node real j1 j2 =>
        have hh : t ≠ t' := fun e => hop (by rw [e]; rfl)
        obtain ⟨-, -, -, e1, e2, -⟩ := hE
        rw [e1, e2, upd_ne hh, upd_ne (by simpa using hh)]; exact ⟨rfl, rfl⟩
      | link t' =>
        have hh : t ≠ t' := fun e => hop (by rw [e]; rfl)
        obtain ⟨p, r, a1, a2, a3, a4, e1, e2, -⟩ := hE
        rw [e1, e2, upd_ne hh, upd_ne (by simp), upd_ne (by simpa using hh)]; exact ⟨rfl, rfl⟩
      | unlink t' b j =>
        have hh : t ≠ t' := fun e => hop (by rw [e]; rfl)
        obtain ⟨p, r, a1, a2, a3, a4, ⟨g, -, g2, g1, g3, e1, e2⟩ | ⟨-, e1, e2, -⟩⟩ := hE
        · rw [e1, upd_ne hh]; exact ⟨rfl, hr _ _ e2⟩
        · rw [e1, e2, upd_ne hh, upd_ne (by simpa using hh)]; exact ⟨rfl, rfl⟩
    refine ⟨.step op i1 hc he hs, by rw [key.1, i2], by rw [key.2, i3], fun r hr x h1 h2 => ?_⟩
    rw [var_mem i1.sinv hc he hs (by rw [i3]; exact hr) (fun e => hop (by rw [e]; rfl)) (fun b j e => hop (by rw [e]; rfl)) h1 h2]
    exact i4 r hr x h1 h2

/-- A call of `malloc` or `calloc`, or of `realloc` without a block, with other threads running: the caller gets a new block of the size it
asked for, with whole guards, filled with 0 if it was `calloc`. -/
theorem mdbg_malloc {c : Bool} {s0 s1 s2 s3 : St} {t node real : Nat} {q : Req} {j1 j2 : Nat → UInt8} (h : Hist Sloppy c s0)
    (hc : Client Sloppy s0 (.alloc t q node real j1 j2)) (he : Env s0 (.alloc t q node real j1 j2)) (h1 : step s0 (.alloc t q node real j1 j2) = .ok s1)
    (h0 : q.old = 0) (d : During t s1 s2) (h2 : step s2 (.link t) = .ok s3) :
    s2.own (real + 8) = none ∧ s3.own (real + 8) = some { n := q.want, trk := true } ∧ Guarded s3.mem (real + 8) q.want ∧
    (q.zero = true → ∀ i, i < q.want → s3.mem (real + 8 + i) = 0) := by
  have hh1 : Hist Sloppy c s1 := .step _ h hc he h1
  obtain ⟨⟨a1, a2, a3, e1, e2, e3, e4, e5, e6, e7⟩, -⟩ := step_eff h.sinv hc h1
  have hw := Req.want_size (q := q) (Nat.lt_of_le_of_lt (Nat.le_add_right _ 16) hc.1)
  obtain ⟨hh2, b1, b2, b3⟩ := d.keep hh1 (t := t) ⟨_, by rw [e1]; exact upd_same⟩
  rw [e1, upd_same] at b1
  rw [e2, upd_same] at b2 b3
  obtain ⟨⟨p, r, c1, c2, c3, c4, c5, c6, c7, c8⟩, -⟩ := step_eff (W := Sloppy) hh2.sinv (by trivial) h2
  rw [b1] at c1; cases c1
  rw [b2] at c2; cases c2
  dsimp only [Rec.user] at c3 c4 c5 c6 c7 c8
  have hm : (⟨node, real, q.size⟩ : Rec) ∈ s2.tab (.var t) := by rw [b2]; simp
  have hb := b3 ⟨node, real, q.size⟩ (by simp)
  dsimp only at hb
  refine ⟨hh2.sinv.not_own hm (by simp), ?_, ?_, ?_⟩
  · rw [c8, upd_same, hw]
  · rw [← hw]
    constructor
    · intro i hi
      rw [c7]
      have : s2.mem (real + 8 - 8 + i) = startMagic i := by
        rw [Nat.add_sub_cancel, hb _ (by omega) (by omega)]; exact e6 i hi
      split
      · rw [fill_out (by omega)]; exact this
      · exact this
    · intro i hi
      rw [c7]
      have : s2.mem (real + 8 + q.size + i) = endMagic i := by
        rw [hb _ (by omega) (by omega)]; exact e7 i hi
      split
      · rw [fill_out (by omega)]; exact this
      · exact this
  · intro hz i hi
    rw [c7, if_pos hz, fill_in (by omega)]

/-- The block given to a `realloc` under way keeps its record. -/
theorem During.trk {c : Bool} {t : Nat} {s s' : St} (d : During t s s') (h : Hist Sloppy c s) {q : Pend} (hq : s.thr t = some q) (h0 : q.old ≠ 0)
    {e : Ent} (ho : s.own q.old = some e) : ∃ e', s'.own q.old = some e' ∧ e'.trk = e.trk := by
  induction d with
  | refl => exact ⟨e, ho, rfl⟩
  | @step s1 s2 op d hop hc he hs ih =>
    obtain ⟨e', h1, h2⟩ := ih
    obtain ⟨i1, i2, -, -⟩ := d.keep h ⟨q, hq⟩
    rw [hq] at i2
    have hu : ¬ Uses s1 op q.old := by
      obtain ⟨x, x1, x2, -⟩ := i1.sinv.old t q i2 h0
      rw [h1] at x1; cases x1
      intro hu
      cases op with
      | unlink t' b j =>
        obtain ⟨q', y1, y2, y3⟩ := hu
        obtain ⟨z, z1, z2, -⟩ := i1.sinv.old t' q' y1 y2
        rw [y3, h1] at z1; cases z1
        rw [x2] at z2; cases z2
        exact hop rfl
      | plain q' b j =>
        obtain ⟨y1, y2⟩ := hu
        obtain ⟨z, z1, z2, -⟩ := hc.2.resolve_left y1
        rw [y2, h1] at z1; cases z1
        rw [x2] at z2; cases z2
      | free p =>
        cases hu
        obtain ⟨z, z1, z2⟩ := (show _ = 0 ∨ Has s1 _ from hc).resolve_left h0
        rw [h1] at z1; cases z1
        rw [x2] at z2; cases z2
      | _ => exact hu.elim
    obtain ⟨e2, a1, -, a2⟩ := own_frame i1.sinv hc he hs h1 hu
    exact ⟨e2, a1, by rw [a2, h2]⟩

/-- A call of `realloc` with a block allocated with the hook on: it is taken from the program, and the caller gets a new block that begins with
the bytes the old one had at the call. -/
theorem mdbg_realloc {c : Bool} {s0 s1 s2 s3 s4 s5 : St} {t node real b p n : Nat} {e : Ent} {j1 j2 j : Nat → UInt8} (h : Hist Sloppy c s0)
    (hc : Client Sloppy s0 (.alloc t (.realloc p n) node real j1 j2)) (he : Env s0 (.alloc t (.realloc p n) node real j1 j2))
    (h1 : step s0 (.alloc t (.realloc p n) node real j1 j2) = .ok s1) (ho : s0.own p = some e) (ht : e.trk = true)
    (d : During t s1 s2) (he2 : Env s2 (.unlink t b j)) (h2 : step s2 (.unlink t b j) = .ok s3) (d' : During t s3 s4) (h3 : step s4 (.link t) = .ok s5) :
    s3.own p = none ∧ s4.own (real + 8) = none ∧ s5.own (real + 8) = some { n := n, trk := true } ∧ Guarded s5.mem (real + 8) n ∧
    ∀ i, i < e.n → i < n → s5.mem (real + 8 + i) = s0.mem (p + i) := by
  have hh1 : Hist Sloppy c s1 := .step _ h hc he h1
  have hp0 := h.sinv.own_pos ho
  obtain ⟨⟨a1, a2, a3, e1, e2, e3, e4, e5, e6, e7⟩, -⟩ := step_eff h.sinv hc h1
  dsimp only [Req.old, Req.size, Req.zero] at e1 e2 e3 e4 e6 e7
  have hsz : s0.size p = e.n := by simp [St.size, ho]
  rw [hsz] at e1
  obtain ⟨hh2, b1, b2, b3⟩ := d.keep hh1 (t := t) ⟨_, by rw [e1]; exact upd_same⟩
  rw [e1, upd_same] at b1
  rw [e2, upd_same] at b2 b3
  have hh3 : Hist Sloppy c s3 := .step (.unlink t b j) hh2 trivial he2 h2
  -- the old block is still there, with its record
  obtain ⟨x, x1, x2, x3⟩ := hh2.sinv.old t _ b1 hp0
  dsimp only at x1 x3
  obtain ⟨⟨q, r, c1, c2, c3, c4, c5⟩, -⟩ := step_eff (W := Sloppy) hh2.sinv (by trivial) h2
  rw [b1] at c1; cases c1
  rw [b2] at c2; cases c2
  have hne : find s2 p ≠ none := by
    intro hn
    have := d.trk hh1 (t := t) (q := _) (by rw [e1]; exact upd_same) hp0 (e := { e with busy := some t }) (by rw [e3, give_some ho]; exact upd_same)
    obtain ⟨y, y1, y2⟩ := this
    have := hh2.sinv.find_untracked hn y1
    rw [y2] at this
    exact absurd (this.symm.trans ht) (by simp)
  rcases c5 with ⟨g, g0, g1, g2, g3, f1, f2, f3, f4, f5⟩ | ⟨hn, -⟩
  rotate_left
  · exact absurd hn hne
  dsimp only at g0 g1 g2 g3 f1
  have hm : (⟨node, real, n⟩ : Rec) ∈ s2.tab (.var t) := by rw [b2]; simp
  have hgne : g ≠ ⟨node, real, n⟩ := by
    intro e'; rw [e'] at g2; have := (hh2.sinv.uniq _ _ _ _ hm g2 (.inl rfl)).1; cases this
  have hap := hh2.sinv.recs_apart g2 hm hgne
  dsimp only at hap
  have hv3 : s3.tab (.var t) = [⟨node, real, n⟩] := by
    rw [f4]
    split
    · rw [upd_ne (by simp), upd_ne (by simp)]; exact b2
    · rw [upd_ne (by simp)]; exact b2
  obtain ⟨hh4, k1, k2, k3⟩ := d'.keep hh3 (t := t) ⟨_, by rw [f1]; exact upd_same⟩
  rw [f1, upd_same] at k1
  rw [hv3] at k2 k3
  have hb := b3 ⟨node, real, n⟩ (by simp)
  have hk := k3 ⟨node, real, n⟩ (by simp)
  dsimp only at hb hk
  obtain ⟨⟨q', r', l1, l2, l3, l4, l5, l6, l7, l8⟩, -⟩ := step_eff (W := Sloppy) hh4.sinv (by trivial) h3
  rw [k1] at l1; cases l1
  rw [k2] at l2; cases l2
  dsimp only [Rec.user] at l3 l4 l5 l6 l7 l8
  rw [if_neg (by simp)] at l7
  have hm4 : (⟨node, real, n⟩ : Rec) ∈ s4.tab (.var t) := by rw [k2]; simp
  have hgs : ∀ y, real ≤ y → y < real + n + 16 → (y < real + 8 ∨ real + 8 + n ≤ y) → s3.mem y = s2.mem y := by
    intro y y1 y2 y3
    rw [f3]
    split
    · rw [fill_out (by unfold Rec.user; omega), fill_out (by dsimp only [Rec.user]; omega)]
    · rw [fill_out (by dsimp only [Rec.user]; omega)]
  refine ⟨?_, hh4.sinv.not_own hm4 (by simp), ?_, ?_, ?_⟩
  · rw [f5, g1, upd_same]
  · rw [l8, upd_same]
  · rw [l7]
    constructor
    · intro i hi
      rw [Nat.add_sub_cancel, hk _ (by omega) (by omega), hgs _ (by omega) (by omega) (by omega), hb _ (by omega) (by omega)]
      exact e6 i hi
    · intro i hi
      rw [hk _ (by omega) (by omega), hgs _ (by omega) (by omega) (by omega), hb _ (by omega) (by omega)]
      exact e7 i hi
  · intro i hi hi'
    rw [l7]
    exact hh4.data.new t _ _ k1 rfl k2 i hi hi'

/-- The same with a block allocated with the hook off: the C library resizes it, and the call is over. -/
theorem mdbg_realloc_plain {c : Bool} {s0 s1 s2 s3 : St} {t node real b p n : Nat} {e : Ent} {j1 j2 j : Nat → UInt8} (h : Hist Sloppy c s0)
    (hc : Client Sloppy s0 (.alloc t (.realloc p n) node real j1 j2)) (he : Env s0 (.alloc t (.realloc p n) node real j1 j2))
    (h1 : step s0 (.alloc t (.realloc p n) node real j1 j2) = .ok s1) (ho : s0.own p = some e) (ht : e.trk = false)
    (d : During t s1 s2) (he2 : Env s2 (.unlink t b j)) (h2 : step s2 (.unlink t b j) = .ok s3) :
    s3.thr t = none ∧ s3.own b = some { n := n, trk := false } ∧ (b ≠ p → s3.own p = none) ∧
    ∀ i, i < e.n → i < n → s3.mem (b + i) = s0.mem (p + i) := by
  have hh1 : Hist Sloppy c s1 := .step _ h hc he h1
  have hp0 := h.sinv.own_pos ho
  obtain ⟨⟨a1, a2, a3, e1, e2, e3, e4, e5, e6, e7⟩, -⟩ := step_eff h.sinv hc h1
  dsimp only [Req.old, Req.size, Req.zero] at e1 e2 e3 e4 e6 e7
  have hsz : s0.size p = e.n := by simp [St.size, ho]
  rw [hsz] at e1
  obtain ⟨hh2, b1, b2, b3⟩ := d.keep hh1 (t := t) ⟨_, by rw [e1]; exact upd_same⟩
  rw [e1, upd_same] at b1
  rw [e2, upd_same] at b2 b3
  obtain ⟨⟨q, r, c1, c2, c3, c4, c5⟩, -⟩ := step_eff (W := Sloppy) hh2.sinv (by trivial) h2
  rw [b1] at c1; cases c1
  rw [b2] at c2; cases c2
  rcases c5 with ⟨g, g0, -⟩ | ⟨hn, f1, f2, f3, f4⟩
  · exfalso
    dsimp only at g0
    have := d.trk hh1 (t := t) (q := _) (by rw [e1]; exact upd_same) hp0 (e := { e with busy := some t }) (by rw [e3, give_some ho]; exact upd_same)
    obtain ⟨y, y1, y2⟩ := this
    obtain ⟨z, z1, z2, -⟩ := hh2.sinv.find_own g0
    rw [z1] at y1; cases y1
    rw [z2] at y2
    exact absurd (y2.trans ht) (by simp)
  dsimp only at f1 f2 f3 f4
  refine ⟨by rw [f1, upd_same], by rw [f3, upd_same], fun hb => ?_, fun i hi hi' => ?_⟩
  · rw [f3, upd_ne (Ne.symm hb), upd_same]
  · rw [f4 i hi' hi]
    exact hh2.data.old t _ b1 hp0 i hi

/-- With the hook off. -/
theorem mdbg_off {c : Bool} {s s' : St} {q : Req} {b : Nat} {j : Nat → UInt8} (h : Hist Sloppy c s) (hc : Client Sloppy s (.plain q b j))
    (he : Env s (.plain q b j)) (hs : step s (.plain q b j) = .ok s') :
    (q.old ≠ 0 → b ≠ q.old → s'.own q.old = none) ∧
    (q.old = 0 ∨ q.want ≠ 0 → s'.own b = some { n := q.want, trk := false } ∧ (q.zero = true → ∀ i, i < q.want → s'.mem (b + i) = 0) ∧
      ∀ e, q.old ≠ 0 → s.own q.old = some e → ∀ i, i < e.n → i < q.want → s'.mem (b + i) = s.mem (q.old + i)) := by
  obtain ⟨⟨a1, a2, a3, a4⟩, -⟩ := step_eff h.sinv hc hs
  have hw := Req.want_size (q := q) hc.1
  rw [← hw]
  rcases a4 with ⟨h0, e1, e2⟩ | ⟨h0, h1, e1⟩ | ⟨h0, h1, e1, e2⟩
  · exact ⟨fun a => absurd h0 a, fun _ => ⟨by rw [e1, upd_same], e2, fun e a => absurd h0 a⟩⟩
  · exact ⟨fun _ _ => by rw [e1, upd_same], fun a => by omega⟩
  · refine ⟨fun _ b => by rw [e1, upd_ne (Ne.symm b), upd_same], fun _ => ⟨by rw [e1, upd_same], fun hz => absurd (Req.zero_old hz) h0, ?_⟩⟩
    intro e _ ho i hi hi'
    exact e2 i hi' (by simp [St.size, ho, hi])

/-- `free` takes the block from the program. -/
theorem mdbg_free {c : Bool} {s s' : St} {p : Nat} (h : Hist Sloppy c s) (hc : Client Sloppy s (.free p)) (hs : step s (.free p) = .ok s') :
    s'.own p = none ∧ ∀ p', p' ≠ p → s'.own p' = s.own p' := by
  obtain ⟨⟨a1, ⟨g, -, g1, -, -, -, -, e⟩ | ⟨-, -, e⟩⟩, -⟩ := step_eff h.sinv hc hs
  · rw [e, g1]; exact ⟨upd_same, fun p' hp => upd_ne hp⟩
  · rw [e]; exact ⟨upd_same, fun p' hp => upd_ne hp⟩

/-- No call gets stuck. -/
theorem mdbg_completes {c : Bool} {s : St} (h : Hist Sloppy c s) {t : Nat} :
    (∀ q node real j1 j2, s.thr t = none → s.started = true → q.size ≠ 0 → step s (.alloc t q node real j1 j2) ≠ .disabled) ∧
    (∀ q, s.thr t = some q → (q.old ≠ 0 → ∀ b j, step s (.unlink t b j) ≠ .disabled) ∧ (q.old = 0 → ∃ s', step s (.link t) = .ok s')) := by
  have hi := h.sinv
  refine ⟨fun q node real j1 j2 h1 h2 h3 => ?_, fun q hq => ⟨fun h0 b j => ?_, fun h0 => ?_⟩⟩
  · simp only [step, h1]
    rw [if_neg (by rintro (a | a); · rw [h2] at a; cases a
                   · exact h3 a)]
    split <;> simp
  · obtain ⟨r, hr, -⟩ := hi.var1 t q hq
    simp only [step, hq, hr]
    rw [if_neg h0]
    split
    · next x hx =>
      obtain ⟨h1, h2⟩ := find_some hx
      have hw := Waits.one hi hq h0
      rw [← h2] at hw
      rcases retire_inv hi h1 hw (fill s.mem r.user (min x.size q.size) (fun i => s.mem (q.old + i))) with ⟨-, g⟩ | ⟨-, s2, g, -⟩ <;>
      · rw [h2] at g; rw [g]; simp
    · next hx =>
      have hm : r ∈ s.tab (.var t) := by rw [hr]; simp
      rw [hi.freePtr hm (s' := { s with tab := upd s.tab (.var t) [] }) rfl]
      dsimp only [libcRealloc]
      split
      · simp
      · next o ho =>
        split at ho
        · simp at ho
        · simp
  · obtain ⟨r, hr, -⟩ := hi.var1 t q hq
    simp only [step, hq, hr]
    rw [if_neg (by simpa using h0)]
    exact ⟨_, rfl⟩

/-! ## Freed blocks -/

/-- With ENABLE_FREE_MEMORY_CHECK a freed block is kept with all its bytes 0xee until the checking thread has come by twice: nobody but a
program that writes to it changes it, the second time it is looked at, and then it goes back to the C library. -/
theorem mdbg_kept {s s' : St} (h : Hist Sloppy true s) {op : Op} (hc : Client Sloppy s op) (he : Env s op) (hs : step s op = .ok s') {p : Nat} :
    (∀ e, Takes s op p → s.own p = some e → e.trk = true → Kept s' p e.n 2 ∧ Guarded s'.mem p e.n ∧ ∀ i, i < e.n → s'.mem (p + i) = 0xee) ∧
    (∀ n k, Kept s p n k → (∀ x, p ≤ x + 8 → x < p + n + 8 → (∀ v, op ≠ .write x v) → s'.mem x = s.mem x) ∧
      (op ≠ .sweep (hash p) → Kept s' p n k) ∧
      (op = .sweep (hash p) → k = 2 → Kept s' p n 1) ∧
      (op = .sweep (hash p) → k = 1 → s'.libc (p - 8) = none)) := by
  have hi := h.sinv
  have hchk := h.chk
  have hi' := (Hist.step op h hc he hs).sinv
  obtain ⟨hE, -⟩ := step_eff hi hc hs
  constructor
  · intro e hT ho ht
    obtain ⟨r, r1, r2, r3, r4⟩ := hi.rec_of ho ht
    have r2 : r.user = p := r2
    have key : ∀ m, Retired s s' r m → (∀ x, (x < r.user ∨ r.user + r.size ≤ x) → r.real ≤ x → x < r.real + r.size + 16 → m x = s.mem x) →
        Kept s' p e.n 2 ∧ Guarded s'.mem p e.n ∧ ∀ i, i < e.n → s'.mem (p + i) = 0xee := by
      rintro m ⟨c1, c2, c3, c4⟩ hm
      rw [if_pos hchk] at c2 c3
      rw [← r2, ← r3]
      refine ⟨⟨r, rfl, rfl, .inr ⟨rfl, by rw [c3, upd_same]; simp⟩⟩, ?_, fun i hi => by rw [c2, fill_in hi]⟩
      rw [← guarded_rec]
      have := intact_iff.1 c1
      refine intact_iff.2 ⟨fun i hi => ?_, fun i hi => ?_⟩
      · rw [c2, fill_out (by unfold Rec.user; omega), hm _ (by unfold Rec.user; omega) (by omega) (by omega)]; exact this.1 i hi
      · rw [c2, fill_out (by omega), hm _ (by omega) (by unfold Rec.user; omega) (by unfold Rec.user; omega)]; exact this.2 i hi
    rcases hT with rfl | ⟨q, b, j, rfl, h0, rfl⟩ | ⟨t, b, j, q, rfl, hq, h0, rfl⟩
    · obtain ⟨-, ⟨g, g0, -, -, g1⟩ | ⟨g0, -⟩⟩ := hE
      · rw [r4] at g0; cases g0
        exact key _ g1 (fun _ _ _ _ => rfl)
      · rw [r4] at g0; cases g0
    · obtain ⟨x, x1, -, x2⟩ := hc.2.resolve_left h0
      rw [ho] at x1; cases x1; rw [ht] at x2; cases x2
    · obtain ⟨q', y, c1, c2, c3, c4, ⟨g, g0, -, -, -, -, g1⟩ | ⟨g0, -⟩⟩ := hE
      · rw [hq] at c1; cases c1
        rw [r4] at g0; cases g0
        refine key _ g1 fun x x1 x2 x3 => ?_
        have hm : y ∈ s.tab (.var t) := by rw [c2]; simp
        have hne : r ≠ y := by rintro rfl; have := (hi.uniq _ _ _ _ hm r1 (.inl rfl)).1; cases this
        have := hi.recs_apart r1 hm hne
        rw [fill_out (by unfold Rec.user; omega)]
      · rw [hq] at c1; cases c1; rw [r4] at g0; cases g0
  · rintro n k ⟨r, rfl, rfl, hk⟩
    have hin : ∃ pl, r ∈ s.tab pl ∧ (pl = .d1 (hash r.user) ∨ pl = .d2 (hash r.user)) := by
      rcases hk with ⟨-, hk⟩ | ⟨-, hk⟩
      · exact ⟨_, hk, .inl rfl⟩
      · exact ⟨_, hk, .inr rfl⟩
    obtain ⟨pl, hr, hpl⟩ := hin
    refine ⟨fun x h1 h2 h3 => ?_, fun hne => ?_, ?_, ?_⟩
    · refine step_mem hi hc hs fun hx => ?_
      rcases reach_rec hi he hc hr (by unfold Rec.user at h1; omega) (by unfold Rec.user at h2; omega) hx with
        ⟨v, a⟩ | ⟨-, -, ⟨t, a, -⟩ | ⟨t, a, -⟩⟩ | ⟨t, b, j, q, a, -⟩
      · exact h3 v a
      all_goals rcases hpl with rfl | rfl <;> cases a
    · refine ⟨r, rfl, rfl, ?_⟩
      have key : s'.tab (.d1 (hash r.user)) = s.tab (.d1 (hash r.user)) ∧ ∀ y ∈ s.tab (.d2 (hash r.user)), y ∈ s'.tab (.d2 (hash r.user)) := by
        have hR : ∀ g m, Retired s s' g m → s'.tab (.d1 (hash r.user)) = s.tab (.d1 (hash r.user)) ∧ ∀ y ∈ s.tab (.d2 (hash r.user)), y ∈ s'.tab (.d2 (hash r.user)) := by
          rintro g m ⟨-, -, c3, -⟩
          rw [if_pos hchk] at c3
          rw [c3]
          refine ⟨by rw [upd_ne (by simp), upd_ne (by simp)], fun y hy => ?_⟩
          by_cases e : hash r.user = hash g.user
          · rw [e] at hy ⊢; rw [upd_same]; simp [hy]
          · rw [upd_ne (by simpa using e), upd_ne (by simp)]; exact hy
        cases op with
        | start | write | dumpBegin | dumpEnd => obtain ⟨e1, e2, -⟩ := hE; rw [e2]; exact ⟨rfl, fun _ a => a⟩
        | plain => obtain ⟨-, e1, e2, -⟩ := hE; rw [e2]; exact ⟨rfl, fun _ a => a⟩
        | sweep i =>
          have hh : hash r.user ≠ i := fun e => hne (by rw [e])
          obtain ⟨-, -, e1, -, -, e2⟩ := hE
          rw [e2, upd_ne (by simp), upd_ne (by simpa using hh), upd_ne (by simpa using hh), upd_ne (by simp)]; exact ⟨rfl, fun _ a => a⟩
        | free p =>
          obtain ⟨e1, ⟨g, -, -, -, e2⟩ | ⟨-, e2, -⟩⟩ := hE
          · exact hR _ _ e2
          · rw [e2]; exact ⟨rfl, fun _ a => a⟩
        | alloc t' rq node real j1 j2 =>
          obtain ⟨-, -, -, e1, e2, -⟩ := hE
          rw [e2, upd_ne (by simp), upd_ne (by simp)]; exact ⟨rfl, fun _ a => a⟩
        | link t' =>
          obtain ⟨p, y, a1, a2, a3, a4, e1, e2, -⟩ := hE
          rw [e1, upd_ne (by simp), upd_ne (by simp), upd_ne (by simp), upd_ne (by simp)]; exact ⟨rfl, fun _ a => a⟩
        | unlink t' b j =>
          obtain ⟨p, y, a1, a2, a3, a4, ⟨g, -, g2, g1, g3, e1, e2⟩ | ⟨-, e1, e2, -⟩⟩ := hE
          · exact hR _ _ e2
          · rw [e2, upd_ne (by simp), upd_ne (by simp)]; exact ⟨rfl, fun _ a => a⟩
      rcases hk with ⟨a, hk⟩ | ⟨a, hk⟩
      · exact .inl ⟨a, by rw [key.1]; exact hk⟩
      · exact .inr ⟨a, key.2 _ hk⟩
    · rintro rfl rfl
      obtain ⟨-, -, e1, -, -, e2⟩ := hE
      rcases hk with ⟨a, -⟩ | ⟨-, hk⟩
      · cases a
      · exact ⟨r, rfl, rfl, .inl ⟨rfl, by rw [e2, upd_ne (by simp), upd_same]; exact hk⟩⟩
    · rintro rfl rfl
      rcases hk with ⟨-, hk⟩ | ⟨a, -⟩
      rotate_left
      · cases a
      have hrr : r.user - 8 = r.real := by unfold Rec.user; omega
      rw [hrr]
      cases hl : s'.libc r.real with
      | none => rfl
      | some n =>
        exfalso
        rcases hi'.all _ _ hl with ⟨pl', y, y1, y2⟩ | ⟨x, x1, x2⟩
        · have hy : ∃ pl0, y ∈ s.tab pl0 ∧ (pl0 = .d1 (hash r.user) → False) := by
            rcases rec_cases hi hc hs y1 with ⟨a, b⟩ | ⟨t, q, node, real, j1, j2, e, -⟩ | ⟨t, i, e, -⟩ | ⟨i, -, a, -⟩ | ⟨i, -, a, -⟩
            · refine ⟨pl', a, ?_⟩
              rintro rfl
              obtain ⟨-, -, -, -, -, e2⟩ := hE
              rw [e2, upd_ne (by simp), upd_same] at y1
              have := (hi.uniq _ _ _ _ a y1 (.inl rfl)).1
              cases this
            · cases e
            · cases e
            · exact ⟨_, a, by simp⟩
            · exact ⟨_, a, by simp⟩
          obtain ⟨pl0, z1, z2⟩ := hy
          rcases y2 with y2 | y2
          · exact hi.sep _ _ _ _ z1 hk y2.symm
          · exact z2 (hi.uniq _ _ _ _ z1 hk (.inl y2.symm)).1
        · obtain ⟨-, -, -, e3, -⟩ := hE
          rw [e3] at x1
          exact ((hi.own_u _ _ x1 x2).2 _ _ hk).2 rfl

/-- When the program has given back every block, no call is under way and no freed block is kept, nothing of the C library's is held. -/
theorem mdbg_no_leak {c : Bool} {s : St} (h : Hist Sloppy c s) (h1 : ∀ p, s.own p = none) (h2 : ∀ t, s.thr t = none) (h3 : ∀ p n k, ¬ Kept s p n k) :
    ∀ a, s.libc a = none := by
  intro a
  have hi := h.sinv
  cases hl : s.libc a with
  | none => rfl
  | some n =>
    exfalso
    rcases hi.all _ _ hl with ⟨pl, r, hr, -⟩ | ⟨e, ho, -⟩
    · cases pl with
      | live i => obtain ⟨e, ho, -⟩ := hi.live_own _ _ hr; rw [h1] at ho; cases ho
      | d1 i => exact h3 r.user r.size 1 ⟨r, rfl, rfl, .inl ⟨rfl, by rw [h.home1 _ _ (.inl hr)]; exact hr⟩⟩
      | d2 i => exact h3 r.user r.size 2 ⟨r, rfl, rfl, .inr ⟨rfl, by rw [h.home1 _ _ (.inr hr)]; exact hr⟩⟩
      | var t => rw [hi.var0 t (h2 t)] at hr; cases hr
    · rw [h1] at ho; cases ho

/-- Without ENABLE_FREE_MEMORY_CHECK no freed block is kept. -/
theorem mdbg_not_kept {s : St} (h : Hist Sloppy false s) : ∀ p n k, ¬ Kept s p n k := by
  have := h.sinv.nochk h.chk
  rintro p n k ⟨r, -, -, ⟨-, a⟩ | ⟨-, a⟩⟩
  · rw [(this _).1] at a; cases a
  · rw [(this _).2] at a; cases a

/-- The leak report lists each block the program got with the hook on and did not free, once, with its size, and nothing else. -/
theorem mdbg_dump {c : Bool} {s : St} (h : Hist Sloppy c s) :
    ((dump s).map Prod.fst).Nodup ∧ ∀ p n, (p, n) ∈ dump s ↔ ∃ e, s.own p = some e ∧ e.trk = true ∧ e.n = n := by
  have hi := h.sinv
  constructor
  · unfold dump
    rw [List.map_flatMap]
    unfold List.Nodup
    rw [List.pairwise_flatMap]
    constructor
    · intro i _
      rw [List.map_map, List.pairwise_map]
      refine List.Pairwise.imp_of_mem ?_ (hi.nd (.live i))
      intro r r' hr hr' hne e
      exact hne (hi.uniq _ _ _ _ hr hr' (.inl (by simpa [Rec.user] using e))).2
    · refine List.Pairwise.imp ?_ (List.nodup_range (n := 16384))
      intro i i' hne x hx y hy e
      simp only [List.map_map, List.mem_map, Function.comp] at hx hy
      obtain ⟨r, hr, rfl⟩ := hx
      obtain ⟨r', hr', rfl⟩ := hy
      have := (hi.uniq _ _ _ _ hr hr' (.inl (by simpa [Rec.user] using e))).1
      cases this
      exact hne rfl
  · intro p n
    unfold dump
    simp only [List.mem_flatMap, List.mem_range, List.mem_map, Prod.mk.injEq]
    constructor
    · rintro ⟨i, -, r, hr, rfl, rfl⟩
      obtain ⟨e, ho, ht⟩ := hi.live_own _ _ hr
      obtain ⟨r', h1, h2, h3, -⟩ := hi.rec_of ho ht
      have := (hi.uniq _ _ _ _ hr h1 (.inl (by unfold Rec.user at h2; omega))).2
      subst this
      exact ⟨e, ho, ht, h3.symm⟩
    · rintro ⟨e, ho, ht, rfl⟩
      obtain ⟨r', h1, h2, h3, -⟩ := hi.rec_of ho ht
      exact ⟨hash p, Nat.mod_lt _ (by decide), r', h1, h2, h3⟩

/-! ## The hypotheses can be met -/

private def z : Nat → UInt8 := fun _ => 0

/-- After `start_hook_alloc`. -/
private def e0 (c : Bool) : St := { chk := c, mem := z }

private theorem e1_hist (W : St → Nat → Prop) (c : Bool) : Hist W c { e0 c with tab := clearTab (e0 c).tab, started := true, ever := true } :=
  .step .start (.init z) rfl trivial rfl

/-- In any history in which the hook is on, any size can be asked for, and the call comes to its end. -/
private theorem malloc_hist {W : St → Nat → Prop} {c : Bool} {s : St} (h : Hist W c s) {t n node real : Nat} (ht : s.thr t = none) (hs : s.started = true)
    (hn : n ≠ 0) (hb : n + 16 < 2 ^ 64) (h1 : Fresh s.libc node nodeSize) (h2 : Fresh (upd s.libc node (some nodeSize)) real (n + 16)) :
    ∃ s', Hist W c s' ∧ s'.own = upd s.own (real + 8) (some { n := n, trk := true }) ∧ s'.started = true ∧ s'.thr t = none ∧
      s'.libc = upd (upd s.libc node (some nodeSize)) real (some (n + 16)) := by
  have hc : Client W s (.alloc t (.malloc n) node real z z) := ⟨hb, .inl rfl⟩
  have he : Env s (.alloc t (.malloc n) node real z z) := ⟨h1, h2⟩
  have hstep : ∃ s1, step s (.alloc t (.malloc n) node real z z) = .ok s1 ∧ s1.started = true ∧
      s1.libc = upd (upd s.libc node (some nodeSize)) real (some (n + 16)) := by
    simp only [step, ht]
    rw [if_neg (by rintro (a | a); · rw [hs] at a; cases a
                   · exact hn a), if_neg (by dsimp only [Req.size]; omega)]
    exact ⟨_, rfl, hs, rfl⟩
  obtain ⟨s1, e1, hs1, hl1⟩ := hstep
  have hh1 := Hist.step _ h hc he e1
  obtain ⟨⟨-, -, -, a1, a2, -, -, a5, -⟩, -⟩ := step_eff h.sinv hc e1
  have b1 := congrFun a1 t
  have b2 := congrFun a2 (.var t)
  rw [upd_same] at b1 b2
  have e2 : ∃ s2, step s1 (.link t) = .ok s2 ∧ s2.own = upd s1.own (real + 8) (some { n := n, trk := true }) ∧ s2.started = s1.started ∧ s2.thr t = none ∧
      s2.libc = s1.libc := by
    simp only [step, b1, b2]
    rw [if_neg (by simp [Req.old])]
    exact ⟨_, rfl, rfl, rfl, upd_same, rfl⟩
  obtain ⟨s2, e2, f1, f2, f3, f4⟩ := e2
  exact ⟨s2, .step (.link t) hh1 trivial trivial e2, by rw [f1, (a5 rfl).1], by rw [f2, hs1], f3, by rw [f4, hl1]⟩

/-- A program with a block of 5 bytes, that it may use and free; with a byte behind the block overwritten it is stopped. -/
example (c : Bool) : ∃ s, Hist InBounds c s ∧ s.own 8200 = some { n := 5, trk := true } ∧ InBounds s 8204 ∧ ¬ InBounds s 8205 ∧
    Client InBounds s (.free 8200) ∧ (∃ s', step s (.free 8200) = .ok s') ∧
    step { s with mem := upd s.mem 8205 0 } (.free 8200) = .abort := by
  obtain ⟨s, h, ho, -⟩ := malloc_hist (e1_hist InBounds c) (t := 1) (n := 5) (node := 4096) (real := 8192) rfl rfl (by decide) (by decide)
    ⟨by decide, by decide, by decide, by simp [e0]⟩
    ⟨by decide, by decide, by decide, by intro b m hb; unfold upd at hb; split at hb <;> simp_all [e0, nodeSize]; omega⟩
  have h1 : s.own 8200 = some { n := 5, trk := true } := by rw [ho]; rfl
  have hc : Client InBounds s (.free 8200) := .inr ⟨_, h1, rfl⟩
  have hS : Hist Sloppy c { s with mem := upd s.mem 8205 0 } :=
    .step (.write 8205 0) h.sloppy (.inr (.inl ⟨8200, _, h1, rfl, rfl, by decide, by decide⟩)) trivial rfl
  refine ⟨s, h, h1, ⟨8200, _, h1, rfl, by decide, by decide⟩, ?_, hc, ?_, ?_⟩
  · rintro ⟨p, e, a, -, b, d⟩
    rw [ho] at a
    unfold upd at a
    split at a
    · cases a; subst p; simp at d
    · cases a
  · rcases step_sinv h.sinv hc trivial with e | e | ⟨s', e, -⟩
    · exfalso
      obtain ⟨r, -, -, -, hr⟩ := h.sinv.rec_of h1 rfl
      simp only [step, hr] at e
      unfold retire at e
      dsimp only at e
      split at e
      · split at e
        · cases e
        · unfold freePtr libcFree at e
          split at e
          · split at e
            · cases e
            · split at e <;> cases e
          · split at e
            · cases e
            · split at e <;> cases e
      · cases e
    · exact absurd e (mdbg_no_false_alarm h hc trivial)
    · exact ⟨s', e⟩
  · refine (mdbg_abort_iff hS (op := .free 8200) (Or.inr ⟨_, h1, rfl⟩ : _ = 0 ∨ Has _ 8200) trivial).2 (.inl ⟨8200, _, .inl rfl, h1, rfl, ?_⟩)
    intro hg
    have : (0 : UInt8) = endMagic 0 := hg.2 0 (by decide)
    exact absurd this (by decide)

/-- A `realloc` of that block to 9 bytes, with the free of another block by another thread in between. -/
example (c : Bool) : ∃ s0 s1 s2 s3 s5, Hist InBounds c s0 ∧ s0.own 8200 = some { n := 5, trk := true } ∧ s0.own 40008 = some { n := 3, trk := true } ∧
    step s0 (.alloc 1 (.realloc 8200 9) 12288 16384 z z) = .ok s1 ∧ Env s0 (.alloc 1 (.realloc 8200 9) 12288 16384 z z) ∧
    Client InBounds s0 (.alloc 1 (.realloc 8200 9) 12288 16384 z z) ∧ s1 ≠ s2 ∧ During 1 s1 s2 ∧
    Env s2 (.unlink 1 0 z) ∧ step s2 (.unlink 1 0 z) = .ok s3 ∧ step s3 (.link 1) = .ok s5 := by
  obtain ⟨s', h', ho', hst', ht', hl'⟩ := malloc_hist (e1_hist InBounds c) (t := 1) (n := 5) (node := 4096) (real := 8192) rfl rfl (by decide) (by decide)
    ⟨by decide, by decide, by decide, by simp [e0]⟩
    ⟨by decide, by decide, by decide, by intro b m hb; unfold upd at hb; split at hb <;> simp_all [e0, nodeSize]; omega⟩
  have hfr : ∀ {f : Nat → Option Nat} {a n : Nat}, 0 < a → a % 16 = 0 → a + n < 2 ^ 64 → (∀ b m, f b = some m → b + m < a) → Fresh f a n :=
    fun x1 x2 x3 x4 => ⟨x1, x2, x3, fun b m hb => .inr (x4 b m hb)⟩
  have hle : ∀ b m, s'.libc b = some m → b + m < 9000 := by
    intro b m hb; rw [hl'] at hb
    unfold upd at hb; split at hb
    · simp at hb; omega
    · split at hb
      · unfold nodeSize at hb; simp at hb; omega
      · cases hb
  obtain ⟨s0, h, ho, hst, ht, hl⟩ := malloc_hist h' (t := 1) (n := 3) (node := 32000) (real := 40000) ht' hst' (by decide) (by decide)
    (hfr (by decide) (by decide) (by decide) (fun b m hb => by have := hle b m hb; omega))
    (hfr (by decide) (by decide) (by decide) (fun b m hb => by
      unfold upd at hb; split at hb
      · unfold nodeSize at hb; simp at hb; omega
      · have := hle b m hb; omega))
  have h1 : s0.own 8200 = some { n := 5, trk := true } := by rw [ho, upd_ne (by decide), ho']; rfl
  have h2 : s0.own 40008 = some { n := 3, trk := true } := by rw [ho]; rfl
  have hc : Client InBounds s0 (.alloc 1 (.realloc 8200 9) 12288 16384 z z) := ⟨by decide, .inr ⟨_, h1, rfl⟩⟩
  have he : Env s0 (.alloc 1 (.realloc 8200 9) 12288 16384 z z) := by
    have hl2 : ∀ b m, s0.libc b = some m → b + m < 9000 ∨ 30000 < b := by
      intro b m hb; rw [hl] at hb
      unfold upd at hb; split at hb
      · omega
      · split at hb
        · omega
        · exact .inl (hle b m hb)
    refine ⟨⟨by decide, by decide, by decide, fun b m hb => ?_⟩, ⟨by decide, by decide, by decide, fun b m hb => ?_⟩⟩
    · have := hl2 b m hb; unfold nodeSize; omega
    · dsimp only [Req.size]
      unfold upd at hb; split at hb
      · unfold nodeSize at hb; simp at hb; omega
      · have := hl2 b m hb; omega
  have nope : ∀ {s : St} {op : Op}, Hist InBounds c s → Client InBounds s op → Env s op → step s op ≠ .disabled → ∃ s', step s op = .ok s' := by
    intro s op a1 a2 a3 a4
    rcases step_sinv a1.sinv a2 a3 with e | e | ⟨x, e, -⟩
    · exact absurd e a4
    · exact absurd e (mdbg_no_false_alarm a1 a2 a3)
    · exact ⟨x, e⟩
  obtain ⟨s1, e1⟩ := nope h hc he ((mdbg_completes h.sloppy).1 _ _ _ _ _ ht hst (by decide))
  have hh1 := Hist.step _ h hc he e1
  obtain ⟨⟨-, -, -, a1, a2, a3, -⟩, -⟩ := step_eff h.sinv hc e1
  have b3 : s1.own 40008 = some { n := 3, trk := true } := by
    rw [a3, give_some (s := s0) (p := (Req.realloc 8200 9).old) h1, upd_ne (by decide)]; exact h2
  have b4 := hh1.sinv.rec_of b3 rfl
  have hc2 : Client InBounds s1 (.free 40008) := .inr ⟨_, b3, rfl⟩
  have hd : step s1 (.free 40008) ≠ .disabled := by
    obtain ⟨r, r1, r2, -, r3⟩ := b4
    have r2 : r.user = 40008 := r2
    have hw := Waits.refl hh1.sinv b3 rfl
    rw [← r2] at hw
    simp only [step, r3]
    rcases retire_inv hh1.sinv r1 hw s1.mem with ⟨-, g⟩ | ⟨-, s2, g, -⟩ <;> (rw [r2] at g; rw [g]; simp)
  obtain ⟨s2, e2⟩ := nope hh1 hc2 trivial hd
  have hh2 := Hist.step _ hh1 hc2 trivial e2
  have b5 := (mdbg_free hh1.sloppy hc2 e2).1
  have hD : During 1 s1 s2 := .step (.free 40008) (.refl s1) (by simp [Op.caller]) hc2 trivial e2
  have hq := congrFun a1 1
  rw [upd_same] at hq
  have k := (hD.keep hh1.sloppy ⟨_, hq⟩).2.1
  rw [hq] at k
  have b6 : s2.own 8200 = some { n := 5, trk := true, busy := some 1 } := by
    rw [(mdbg_free hh1.sloppy hc2 e2).2 8200 (by decide), a3, give_some (s := s0) (p := (Req.realloc 8200 9).old) h1]; rfl
  have hE2 : Env s2 (.unlink 1 0 z) := by
    intro p r g1 g2 g3
    rw [k] at g1; cases g1
    obtain ⟨r, -, -, -, r3⟩ := hh2.sinv.rec_of b6 rfl
    have : find s2 8200 = none := g3
    rw [r3] at this; cases this
  obtain ⟨s3, e3⟩ := nope hh2 (op := .unlink 1 0 z) trivial hE2 (((mdbg_completes hh2.sloppy).2 _ k).1 (by simp [Req.old]) _ _)
  have hh3 := Hist.step _ hh2 (by trivial) hE2 e3
  have hk3 : ∃ q, s3.thr 1 = some q ∧ q.old = 0 := by
    obtain ⟨⟨p, r, c1, -, -, -, ⟨g, -, -, -, -, f1, -⟩ | ⟨g, -⟩⟩, -⟩ := step_eff (W := InBounds) hh2.sinv (by trivial) e3
    · exact ⟨_, by rw [f1]; exact upd_same, rfl⟩
    · rw [k] at c1; cases c1
      obtain ⟨r, -, -, -, r3⟩ := hh2.sinv.rec_of b6 rfl
      have : find s2 8200 = none := g
      rw [r3] at this; cases this
  obtain ⟨q3, k1, k2⟩ := hk3
  obtain ⟨s5, e5⟩ := ((mdbg_completes hh3.sloppy).2 _ k1).2 k2
  exact ⟨s0, s1, s2, s3, s5, h, h1, h2, e1, he, hc, (fun e => by rw [e, b5] at b3; cases b3), hD, hE2, e3, e5⟩

/-! ## Findings -/

/-- **Finding (C62).** The block handed out is eight bytes behind one of the C library's: its address is never a multiple of 16, as the C
standard's `max_align_t` asks for on x86-64 and SSE instructions rely on. -/
theorem mdbg_misaligned {s : St} {t node real : Nat} {q : Req} {j1 j2 : Nat → UInt8} (he : Env s (.alloc t q node real j1 j2)) : (real + 8) % 16 = 8 := by
  have := he.2.2.1
  omega

/-- **Finding (C62).** `calloc` multiplies without looking for overflow: 2^32 + 1 objects of 2^32 bytes are "allocated" as 2^32 bytes, and the
program believes it has more than 2^64. -/
theorem mdbg_calloc_overflow : (Req.calloc (2 ^ 32 + 1) (2 ^ 32)).size = 2 ^ 32 ∧ (Req.calloc (2 ^ 32 + 1) (2 ^ 32)).want = 2 ^ 64 + 2 ^ 32 := by decide

/-- **Finding (C62).** A size within 16 of 2^64 is not refused: the sum with the guards wraps round, a block of a few bytes is allocated
and `size` bytes are written to it. -/
theorem mdbg_size_overflow {s : St} {t n node real : Nat} {j1 j2 : Nat → UInt8} (h1 : s.thr t = none) (h2 : s.started = true) (h3 : n < 2 ^ 64)
    (h4 : 2 ^ 64 ≤ n + 16) : step s (.alloc t (.malloc n) node real j1 j2) = .ub := by
  simp only [step, h1]
  rw [if_neg (by rintro (a | a); · rw [h2] at a; cases a
                 · dsimp only [Req.size] at a; omega), if_pos (by dsimp only [Req.size]; omega)]

/-- **Finding (C62).** While one thread writes the leak report the hook is off for all; if another then resizes a block it got before, the
C library is given an address it never handed out. -/
theorem mdbg_realloc_in_dump {c : Bool} {s : St} (h : Hist Sloppy c s) (h1 : s.started = false) {p n b : Nat} {e : Ent} {j : Nat → UInt8}
    (ho : s.own p = some e) (ht : e.trk = true) : step s (.plain (.realloc p n) b j) = .ub := by
  have hi := h.sinv
  have hp := hi.own_pos ho
  have hl : s.libc p = none := by
    obtain ⟨r, r1, r2, r3, -⟩ := hi.rec_of ho ht
    cases hl : s.libc p with
    | none => rfl
    | some m =>
      have := hi.apart _ _ _ _ hl (hi.recs _ _ r1).2 (by omega)
      omega
  have hq : (Req.realloc p n).old ≠ 0 := hp
  simp only [step]
  rw [if_neg (by simp [h1]), if_neg hq]
  split
  · simp [libcFree, Req.old, hp, hl]
  · simp [libcRealloc, Req.old, hl]

/-- **Finding (C62).** Two threads that write the report at the same time leave the hook off for ever: the second saves "off" and restores
it last. -/
theorem mdbg_overlapping_dumps {s : St} (h : s.started = true) (h1 : s.saved 1 = none) (h2 : s.saved 2 = none) :
    ∃ s1 s2 s3 s4, step s (.dumpBegin 1) = .ok s1 ∧ step s1 (.dumpBegin 2) = .ok s2 ∧ step s2 (.dumpEnd 1) = .ok s3 ∧ step s3 (.dumpEnd 2) = .ok s4 ∧
      s4.started = false := by
  refine ⟨{ s with saved := upd s.saved 1 (some true), started := false },
    { s with saved := upd (upd s.saved 1 (some true)) 2 (some false), started := false },
    { s with saved := upd (upd (upd s.saved 1 (some true)) 2 (some false)) 1 none, started := true },
    { s with saved := upd (upd (upd (upd s.saved 1 (some true)) 2 (some false)) 1 none) 2 none, started := false }, ?_, ?_, ?_, ?_, rfl⟩
  · simp [step, h1, h]
  · simp [step, upd, h2]
  · simp [step, upd]
  · simp [step, upd]

end Kasync.MDbg
