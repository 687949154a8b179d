import Verif.MDbg.Eff

/-! # Debugging allocator: the contents of blocks under way -/

namespace Kasync.MDbg

structure Data (s : St) : Prop where
  old : ∀ t q, s.thr t = some q → q.old ≠ 0 → ∀ i, i < q.kn → s.mem (q.old + i) = q.keep i
  new : ∀ t q r, s.thr t = some q → q.old = 0 → s.tab (.var t) = [r] → ∀ i, i < q.kn → i < q.size → s.mem (r.user + i) = q.keep i

/-- The block given to a `realloc` under way. -/
theorem busy_mem {s s' : St} (h : SInv s) {op : Op} (hc : Client Sloppy s op) (he : Env s op) (hs : step s op = .ok s') {p t : Nat} {e : Ent}
    (ho : s.own p = some e) (hb : e.busy = some t) (hop : ∀ b j, op ≠ .unlink t b j) {i : Nat} (hi : i < e.n) : s'.mem (p + i) = s.mem (p + i) := by
  refine step_mem h hc hs fun hx => ?_
  rcases reach_own h he hc ho (by omega) (by omega) hx with ⟨v, rfl⟩ | hu
  · rcases hc with ⟨p', e', h1, h2, h3, h4⟩ | ⟨p', e', h1, h2, h3, h4, h5⟩ | ⟨k, r, h1, h2, h3⟩
    · have hne : p ≠ p' := by rintro rfl; rw [ho] at h1; cases h1; rw [hb] at h2; cases h2
      have := h.own_apart ho h1 hne
      omega
    · have hne : p ≠ p' := by rintro rfl; rw [ho] at h1; cases h1; rw [hb] at h2; cases h2
      have := h.own_apart ho h1 hne
      unfold pad at this; rw [h3] at this; simp only [if_true] at this
      omega
    · have key : ∀ pl, r ∈ s.tab pl → (∀ i, pl ≠ .live i) → False := by
        intro pl hr hpl
        have hn := h.not_own hr hpl
        have := h.own_rec_apart ho hr (by rintro rfl; rw [hn] at ho; cases ho)
        omega
      rcases h1 with h1 | h1 <;> exact key _ h1 (by simp)
  · cases op with
    | unlink t' b j =>
      obtain ⟨q, a, b, rfl⟩ := hu
      obtain ⟨e', c, d, -⟩ := h.old _ _ a b
      rw [ho] at c; cases c; rw [hb] at d; cases d
      exact hop _ _ rfl
    | plain q b j =>
      obtain ⟨h0, rfl⟩ := hu
      obtain ⟨e', c, d, -⟩ := hc.2.resolve_left h0
      rw [ho] at c; cases c; rw [hb] at d; cases d
    | free p' =>
      cases hu
      obtain ⟨e', c, d⟩ := (show p = 0 ∨ Has s p from hc).resolve_left (h.own_pos ho)
      rw [ho] at c; cases c; rw [hb] at d; cases d
    | _ => exact hu.elim

/-- The new block of a `realloc` under way. -/
theorem var_mem {s s' : St} (h : SInv s) {op : Op} (hc : Client Sloppy s op) (he : Env s op) (hs : step s op = .ok s') {t : Nat} {r : Rec}
    (hr : r ∈ s.tab (.var t)) (h1 : op ≠ .link t) (h2 : ∀ b j, op ≠ .unlink t b j) {x : Nat} (hx1 : r.real ≤ x) (hx2 : x < r.real + r.size + 16) :
    s'.mem x = s.mem x := by
  refine step_mem h hc hs fun hx => ?_
  have hn := h.not_own hr (by simp)
  rcases reach_rec h he hc hr hx1 hx2 hx with ⟨v, rfl⟩ | ⟨-, -, ⟨t', a, b | ⟨b', j, b⟩⟩ | ⟨i, a, -⟩⟩ | ⟨t', b', j, q, a, b, -⟩
  · rcases hc with ⟨p', e', h1, h2, h3, h4⟩ | ⟨p', e', h1, h2, h3, h4, h5⟩ | ⟨k, y, h1, h2, h3⟩
    · have := h.own_rec_apart h1 hr (by rintro rfl; rw [hn] at h1; cases h1)
      omega
    · have := h.own_rec_apart h1 hr (by rintro rfl; rw [hn] at h1; cases h1)
      unfold pad at this; rw [h3] at this; simp only [if_true] at this
      omega
    · rcases h1 with h1 | h1 <;>
      · have hne : y ≠ r := by rintro rfl; have := (h.uniq _ _ _ _ h1 hr (.inl rfl)).1; cases this
        have := h.recs_apart h1 hr hne
        omega
  · cases a; exact h1 b
  · cases a; exact h2 _ _ b
  · cases a
  · cases a; exact h2 _ _ b

/-- What can have happened to a thread that is inside `realloc` now. -/
theorem thr_cases {W : St → Nat → Prop} {s s' : St} (h : SInv s) {op : Op} (hc : Client W s op) (hs : step s op = .ok s') {t : Nat} {q : Pend}
    (ht : s'.thr t = some q) :
    (s.thr t = some q ∧ s'.tab (.var t) = s.tab (.var t) ∧ op ≠ .link t ∧ ∀ b j, op ≠ .unlink t b j) ∨
    (∃ rq node real j1 j2, op = .alloc t rq node real j1 j2 ∧ q = ⟨rq.old, rq.size, rq.zero, fun i => s.mem (rq.old + i), s.size rq.old⟩ ∧
      (rq.old ≠ 0 → Has s rq.old) ∧ (rq.old = 0 → s.size rq.old = 0)) ∨
    (∃ b j p r g, op = .unlink t b j ∧ s.thr t = some p ∧ s.tab (.var t) = [r] ∧ s'.tab (.var t) = [r] ∧ q = { p with old := 0 } ∧ r.size = p.size ∧ p.old ≠ 0 ∧
      g ∈ s.tab (.live (hash p.old)) ∧ g.user = p.old ∧ g.size = p.kn ∧
      s'.mem = (if s.chk then fill (fill s.mem r.user (min g.size p.size) (fun i => s.mem (p.old + i))) g.user g.size (fun _ => 0xee)
        else fill s.mem r.user (min g.size p.size) (fun i => s.mem (p.old + i)))) := by
  have hr : ∀ r m, Retired s s' r m → s'.tab (.var t) = s.tab (.var t) := by
    intro r m hm
    rw [hm.2.2.1]
    split
    · rw [upd_ne (by simp), upd_ne (by simp)]
    · rw [upd_ne (by simp)]
  obtain ⟨hE, -⟩ := step_eff h hc hs
  cases op with
  | start | write | dumpBegin | dumpEnd => obtain ⟨e1, e2, -⟩ := hE; exact .inl ⟨by rw [← e1]; exact ht, by rw [e2], by simp, by simp⟩
  | plain => obtain ⟨-, e1, e2, -⟩ := hE; exact .inl ⟨by rw [← e1]; exact ht, by rw [e2], by simp, by simp⟩
  | sweep i =>
    obtain ⟨-, -, e1, -, -, e2⟩ := hE
    exact .inl ⟨by rw [← e1]; exact ht, by rw [e2, upd_ne (by simp), upd_ne (by simp)], by simp, by simp⟩
  | free p =>
    obtain ⟨e1, ⟨g, -, -, -, e2⟩ | ⟨-, e2, -⟩⟩ := hE
    · exact .inl ⟨by rw [← e1]; exact ht, hr _ _ e2, by simp, by simp⟩
    · exact .inl ⟨by rw [← e1]; exact ht, by rw [e2], by simp, by simp⟩
  | alloc t' rq node real j1 j2 =>
    obtain ⟨a1, a2, a3, e1, e2, e3, e4, e5, -⟩ := hE
    by_cases hh : t = t'
    · subst hh
      rw [e1, upd_same] at ht
      cases ht
      exact .inr (.inl ⟨rq, node, real, j1, j2, rfl, rfl, e4, fun h0 => (e5 h0).2⟩)
    · rw [e1, upd_ne hh] at ht
      exact .inl ⟨ht, by rw [e2, upd_ne (by simpa using hh)], by simp, by simp⟩
  | link t' =>
    obtain ⟨p, r, a1, a2, a3, a4, e1, e2, -⟩ := hE
    by_cases hh : t = t'
    · subst hh; rw [e2, upd_same] at ht; cases ht
    · rw [e2, upd_ne hh] at ht
      exact .inl ⟨ht, by rw [e1, upd_ne (by simp), upd_ne (by simpa using hh)], by simpa using Ne.symm hh, by simp⟩
  | unlink t' b j =>
    obtain ⟨p, r, a1, a2, a3, a4, ⟨g, -, g2, g1, g3, e1, e2⟩ | ⟨-, e1, e2, -⟩⟩ := hE
    · by_cases hh : t = t'
      · subst hh
        rw [e1, upd_same] at ht; cases ht
        exact .inr (.inr ⟨b, j, p, r, g, rfl, a1, a2, by rw [hr _ _ e2]; exact a2, rfl, a3, a4, g1, g2, g3, e2.2.1⟩)
      · rw [e1, upd_ne hh] at ht
        exact .inl ⟨ht, hr _ _ e2, by simp, by intro b' j' e; cases e; exact hh rfl⟩
    · by_cases hh : t = t'
      · subst hh; rw [e1, upd_same] at ht; cases ht
      · rw [e1, upd_ne hh] at ht
        exact .inl ⟨ht, by rw [e2, upd_ne (by simpa using hh)], by simp, by intro b' j' e; cases e; exact hh rfl⟩

theorem step_data {s s' : St} (h : SInv s) (d : Data s) {op : Op} (hc : Client Sloppy s op) (he : Env s op) (hs : step s op = .ok s') : Data s' := by
  constructor
  · intro t q ht h0 i hi
    rcases thr_cases h hc hs ht with ⟨a, -, -, b⟩ | ⟨rq, node, real, j1, j2, rfl, rfl, b, -⟩ | ⟨b, j, p, r, g, -, -, -, -, rfl, -⟩
    · obtain ⟨e, ho, hb, hk⟩ := h.old t q a h0
      rw [busy_mem h hc he hs ho hb b (by omega)]
      exact d.old t q a h0 i hi
    · obtain ⟨e, ho, hb⟩ := b h0
      have hn : s.size rq.old = e.n := by simp [St.size, ho]
      dsimp only at hi ⊢
      refine step_mem h hc hs fun hx => ?_
      rcases reach_own h he hc ho (by omega) (by omega) hx with ⟨v, e⟩ | hu
      · cases e
      · exact hu.elim
    · exact absurd rfl h0
  · intro t q r ht h0 hr i hi hi'
    rcases thr_cases h hc hs ht with ⟨a, b, c, e⟩ | ⟨rq, node, real, j1, j2, rfl, rfl, -, b⟩ | ⟨b, j, p, r', g, rfl, a, a1, a2, rfl, a3, a4, a5, a6, a7, a8⟩
    · rw [b] at hr
      have hm : r ∈ s.tab (.var t) := by rw [hr]; simp
      obtain ⟨r', x, y⟩ := h.var1 t q a
      rw [hr] at x; cases x
      rw [var_mem h hc he hs hm c e (by unfold Rec.user; omega) (by unfold Rec.user; omega)]
      exact d.new t q r a h0 hr i hi hi'
    · dsimp only at hi h0
      rw [b h0] at hi; omega
    · rw [a2] at hr; cases hr
      dsimp only at hi hi' ⊢
      have hm : r ∈ s.tab (.var t) := by rw [a1]; simp
      have hne : r ≠ g := by rintro rfl; have := (h.uniq _ _ _ _ hm a5 (.inl rfl)).1; cases this
      have hd := h.recs_apart hm a5 hne
      have hin : fill s.mem r.user (min g.size p.size) (fun i => s.mem (p.old + i)) (r.user + i) = p.keep i := by
        rw [fill_in (by omega)]; exact d.old t p a a4 i hi
      rw [a8]
      split
      · rw [fill_out (by unfold Rec.user; omega)]; exact hin
      · exact hin

theorem Hist.data {c : Bool} {s : St} (h : Hist Sloppy c s) : Data s := by
  induction h with
  | init m => constructor <;> simp
  | step op h hc he hs ih => exact step_data h.sinv ih hc he hs

theorem Hist.chk {W : St → Nat → Prop} {c : Bool} {s : St} (h : Hist W c s) : s.chk = c := by
  induction h with
  | init m => rfl
  | step op h hc he hs ih => rw [(step_eff h.sinv hc hs).2, ih]

/-- A program that keeps to its blocks is a special case of a faulty one. -/
theorem Hist.sloppy {c : Bool} {s : St} (h : Hist InBounds c s) : Hist Sloppy c s := by
  induction h with
  | init m => exact .init m
  | step op h hc he hs ih =>
    refine .step op ih ?_ he hs
    cases op <;> first | exact hc | exact .inl hc

end Kasync.MDbg
