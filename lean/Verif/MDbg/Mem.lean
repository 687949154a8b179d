import Verif.MDbg.Step

/-! # Debugging allocator: what a step does to the memory -/

namespace Kasync.MDbg

/-- The bytes a step may change. -/
def Reach (s : St) (op : Op) (x : Nat) : Prop :=
  match op with
  | .alloc _ q node real _ _ => (node ≤ x ∧ x < node + nodeSize) ∨ (real ≤ x ∧ x < real + (q.size + 16))
  | .unlink t b _ => ∃ p r, s.thr t = some p ∧ s.tab (.var t) = [r] ∧ p.old ≠ 0 ∧
      ((∃ h, find s p.old = some h ∧ ((r.user ≤ x ∧ x < r.user + r.size) ∨ (h.user ≤ x ∧ x < h.user + h.size))) ∨
       (find s p.old = none ∧ b ≤ x ∧ x < b + p.size))
  | .link t => ∃ r, s.tab (.var t) = [r] ∧ r.user ≤ x ∧ x < r.user + r.size
  | .plain q b _ => b ≤ x ∧ x < b + q.size
  | .free p => ∃ h, find s p = some h ∧ h.user ≤ x ∧ x < h.user + h.size
  | .write y _ => x = y
  | _ => False

theorem fill_out {m : Nat → UInt8} {a n x : Nat} {f : Nat → UInt8} (h : ¬ (a ≤ x ∧ x < a + n)) : fill m a n f x = m x := by
  unfold fill; rw [if_neg h]

theorem fill_in {m : Nat → UInt8} {a n i : Nat} {f : Nat → UInt8} (h : i < n) : fill m a n f (a + i) = f i := by
  unfold fill; rw [if_pos ⟨by omega, by omega⟩]; congr 1; omega

theorem retire_mem {s s' : St} {i : Nat} {r : Rec} {m : Nat → UInt8} (he : retire s i r m = .ok s') :
    s'.mem = (if s.chk then fill m r.user r.size (fun _ => 0xee) else m) := by
  unfold retire at he
  dsimp only at he
  split at he
  · split at he
    · next hc => cases he; rw [if_pos hc]
    · next hc =>
      rw [if_neg hc]
      unfold freePtr at he
      split at he
      · next s1 h1 =>
        have key : ∀ {u v : St} {a : Nat}, libcFree u a = .ok v → v.mem = u.mem := by
          intro u v a h
          unfold libcFree at h
          split at h
          · cases h; rfl
          · split at h <;> cases h; rfl
        rw [key he, key h1]
      · next hne => exact (hne _ he).elim
  · cases he

theorem step_mem {W : St → Nat → Prop} {s s' : St} (h : SInv s) {op : Op} (hc : Client W s op) (he : step s op = .ok s') {x : Nat}
    (hx : ¬ Reach s op x) : s'.mem x = s.mem x := by
  cases op with
  | start => cases he; rfl
  | alloc t q node real j1 j2 =>
    dsimp only [Reach] at hx
    simp only [step] at he
    split at he
    · cases he
    · split at he
      · cases he
      · split at he
        · cases he
        · cases he
          dsimp only [libcMalloc]
          rw [fill_out (by omega), fill_out (by omega), fill_out (by omega), fill_out (by omega), fill_out (by omega)]
  | unlink t b j =>
    dsimp only [Reach] at hx
    simp only [step] at he
    split at he
    · next p r ht hr =>
      have hsz : r.size = p.size := by
        obtain ⟨r', a, c⟩ := h.var1 t p ht
        rw [hr] at a; cases a; exact c
      split at he
      · cases he
      next h0 =>
      split at he
      · next y hy =>
        have e := retire_mem he
        have h1 : ¬ (r.user ≤ x ∧ x < r.user + r.size) := fun a => hx ⟨p, r, ht, hr, h0, .inl ⟨y, hy, .inl a⟩⟩
        have h2 : ¬ (y.user ≤ x ∧ x < y.user + y.size) := fun a => hx ⟨p, r, ht, hr, h0, .inl ⟨y, hy, .inr a⟩⟩
        rw [e]
        split
        · rw [fill_out h2, fill_out (by omega)]
        · rw [fill_out (by omega)]
      · next hy =>
        have h1 : ¬ (b ≤ x ∧ x < b + p.size) := fun a => hx ⟨p, r, ht, hr, h0, .inr ⟨hy, a⟩⟩
        have hm : r ∈ s.tab (.var t) := by rw [hr]; simp
        rw [h.freePtr hm (s' := { s with tab := upd s.tab (.var t) [] }) rfl] at he
        dsimp only at he
        unfold libcRealloc at he
        split at he
        · next s2 h2 =>
          split at h2
          · cases h2; cases he; dsimp only; exact fill_out h1
          · cases h2
        · next hne => exact (hne _ he).elim
    · cases he
  | link t =>
    dsimp only [Reach] at hx
    simp only [step] at he
    split at he
    · next p r ht hr =>
      have hsz : r.size = p.size := by
        obtain ⟨r', a, c⟩ := h.var1 t p ht
        rw [hr] at a; cases a; exact c
      split at he
      · cases he
      · cases he
        dsimp only
        split
        · exact fill_out (fun a => hx ⟨r, hr, a.1, by omega⟩)
        · rfl
    · cases he
  | plain q b j =>
    dsimp only [Reach] at hx
    simp only [step] at he
    split at he
    · cases he
    split at he
    · cases he
      dsimp only [libcMalloc]
      split
      · rw [fill_out hx, fill_out hx]
      · exact fill_out hx
    · split at he
      · unfold libcFree at he
        split at he
        · next s1 h1 =>
          split at h1
          · cases h1; cases he; rfl
          · split at h1 <;> cases h1
            cases he; rfl
        · next hne => exact (hne _ he).elim
      · unfold libcRealloc at he
        split at he
        · next s2 h2 =>
          split at h2
          · cases h2; cases he; dsimp only; exact fill_out hx
          · cases h2
        · next hne => exact (hne _ he).elim
  | free p =>
    dsimp only [Reach] at hx
    simp only [step] at he
    split at he
    · next r hr =>
      rw [retire_mem he]
      split
      · exact fill_out (fun a => hx ⟨r, hr, a⟩)
      · rfl
    · unfold libcFree at he
      split at he
      · next s1 h1 =>
        split at h1
        · cases h1; cases he; rfl
        · split at h1 <;> cases h1
          cases he; rfl
      · next hne => exact (hne _ he).elim
  | write y v =>
    cases he
    exact upd_ne hx
  | sweep i =>
    simp only [step] at he
    split at he
    · rcases sweep_inv h rfl (i := i) with ⟨-, e⟩ | ⟨-, s2, e, -, -, h3, -⟩
      · rw [e] at he; cases he
      · rw [e] at he; cases he; dsimp only; rw [h3]
    · cases he
  | dumpBegin t =>
    simp only [step] at he
    split at he <;> cases he; rfl
  | dumpEnd t =>
    simp only [step] at he
    split at he <;> cases he; rfl

/-- Where the bytes of a block the program has lie: eight bytes around it belong to it too if it has a record. -/
def pad (e : Ent) : Nat := if e.trk then 8 else 0

namespace SInv
variable {s : St} (h : SInv s)
include h

/-- The blocks of two records lie apart. -/
theorem recs_apart {pl pl' : Place} {r r' : Rec} (hr : r ∈ s.tab pl) (hr' : r' ∈ s.tab pl') (hne : r ≠ r') :
    r.real + r.size + 16 < r'.real ∨ r'.real + r'.size + 16 < r.real := by
  have h1 := h.recs _ _ hr
  have h2 := h.recs _ _ hr'
  have := h.apart _ _ _ _ h1.2 h2.2 (fun e => hne (h.uniq _ _ _ _ hr hr' (.inl e)).2)
  omega

/-- A block without a record lies apart from those with one. -/
theorem untracked_apart {pl : Place} {r : Rec} {p : Nat} {e : Ent} (hr : r ∈ s.tab pl) (he : s.own p = some e) (ht : e.trk = false) :
    p + e.n < r.real ∨ r.real + r.size + 16 < p := by
  have h1 := h.recs _ _ hr
  have h2 := h.own_u _ _ he ht
  have := h.apart _ _ _ _ h2.1 h1.2 (fun e' => (h2.2 _ _ hr).2 e'.symm)
  omega

/-- The record of a block. -/
theorem rec_of {p : Nat} {e : Ent} (he : s.own p = some e) (ht : e.trk = true) :
    ∃ r, r ∈ s.tab (.live (hash p)) ∧ r.real + 8 = p ∧ r.size = e.n ∧ find s p = some r := by
  obtain ⟨r, a, b, c⟩ := h.own_t _ _ he ht
  refine ⟨r, a, b, c, ?_⟩
  cases hf : find s p with
  | none => exact absurd b (find_none hf r a)
  | some r' =>
    obtain ⟨a', b'⟩ := find_some hf
    rw [(h.uniq _ _ _ _ a' a (.inl (by unfold Rec.user at b b'; omega))).2]

/-- Blocks of the program lie apart, with the bytes around them. -/
theorem own_apart {p p' : Nat} {e e' : Ent} (he : s.own p = some e) (he' : s.own p' = some e') (hne : p ≠ p') :
    p + e.n + pad e < p' - pad e' ∨ p' + e'.n + pad e' < p - pad e := by
  unfold pad
  cases ht : e.trk <;> cases ht' : e'.trk <;> simp only [if_true, Bool.false_eq_true, if_false]
  · have := h.apart _ _ _ _ (h.own_u _ _ he ht).1 (h.own_u _ _ he' ht').1 hne; omega
  · obtain ⟨r, a, b, c, -⟩ := h.rec_of he' ht'
    have := h.untracked_apart a he ht; omega
  · obtain ⟨r, a, b, c, -⟩ := h.rec_of he ht
    have := h.untracked_apart a he' ht'; omega
  · obtain ⟨r, a, b, c, -⟩ := h.rec_of he ht
    obtain ⟨r', a', b', c', -⟩ := h.rec_of he' ht'
    have := h.recs_apart a a' (by rintro rfl; omega); omega

/-- A block of the program and that of a record that is not its own lie apart. -/
theorem own_rec_apart {p : Nat} {e : Ent} {pl : Place} {r : Rec} (he : s.own p = some e) (hr : r ∈ s.tab pl) (hne : r.user ≠ p) :
    p + e.n + pad e < r.real ∨ r.real + r.size + 16 < p - pad e := by
  unfold pad
  cases ht : e.trk <;> simp only [if_true, Bool.false_eq_true, if_false]
  · have := h.untracked_apart hr he ht; omega
  · obtain ⟨r', a', b', c', -⟩ := h.rec_of he ht
    have := h.recs_apart hr a' (by rintro rfl; exact hne b'); omega

end SInv

end Kasync.MDbg
