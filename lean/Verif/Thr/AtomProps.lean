import Verif.Thr.Atom

/-!
# Atomic operations: nothing is lost between threads (C70)

Everything is said of the history: who made which operation with which result, in the order in which they took effect.
-/

namespace Kasync.Atom

/-! ## Vocabulary of the statements -/

/-- What an operation adds, for operations that add. -/
def amount {w : Nat} : Op w → BitVec w
  | .inc => 1
  | .dec => -1
  | .add v => v
  | .sub v => -v
  | _ => 0

/-- The operations that add (or only read). -/
def adds {w : Nat} : Op w → Bool
  | .set _ | .cas _ _ => false
  | _ => true

def sum {w : Nat} : List (BitVec w) → BitVec w
  | [] => 0
  | v :: l => v + sum l

/-- The part of a history made by thread `i`. -/
def ofThread {w : Nat} (h : List (Nat × Op w × Ret w)) (i : Nat) : List (Op w) := (h.filter (fun e => e.1 == i)).map (fun e => e.2.1)

/-! ## Helpers -/

theorem exec_ok {w : Nat} {x : BitVec w} {o : Op w} {v : BitVec w} {r : Ret w} (h : exec x o = .ok (v, r)) :
    (adds o = true → v = x + amount o) ∧ (o = .inc → r = .num (x + 1)) ∧ (o = .dec → r = .num (x - 1)) ∧ (o = .get → r = .num x) ∧
    ((∃ a, o = .add a ∨ o = .sub a) → r = .num x) ∧ (∀ a, o = .set a → v = a ∧ r = .num x) ∧
    (∀ c a, o = .cas c a → (x = c ∧ v = a ∧ r = .bool true) ∨ (x ≠ c ∧ v = x ∧ r = .bool false)) := by
  cases o with
  | inc => simp only [exec, addFetch, Res.ok.injEq, Prod.mk.injEq] at h; obtain ⟨rfl, rfl⟩ := h; simp [amount]
  | dec =>
    simp only [exec, addFetch, Res.ok.injEq, Prod.mk.injEq] at h; obtain ⟨rfl, rfl⟩ := h
    refine ⟨fun _ => rfl, by simp, fun _ => by rw [BitVec.sub_eq_add_neg], by simp, by simp, by simp, by simp⟩
  | get => simp only [exec, fetchAdd, Res.ok.injEq, Prod.mk.injEq] at h; obtain ⟨rfl, rfl⟩ := h; simp [amount]
  | add a => simp only [exec, fetchAdd, Res.ok.injEq, Prod.mk.injEq] at h; obtain ⟨rfl, rfl⟩ := h; simp [amount]
  | sub a =>
    simp only [exec] at h
    split at h
    · split at h
      · cases h
      · simp only [fetchAdd, Res.ok.injEq, Prod.mk.injEq] at h; obtain ⟨rfl, rfl⟩ := h; simp [amount]
    · simp only [fetchSub, Res.ok.injEq, Prod.mk.injEq] at h; obtain ⟨rfl, rfl⟩ := h
      refine ⟨fun _ => by simp only [amount]; rw [BitVec.sub_eq_add_neg], by simp, by simp, by simp, by simp, by simp, by simp⟩
  | set a => simp only [exec, Res.ok.injEq, Prod.mk.injEq] at h; obtain ⟨rfl, rfl⟩ := h; simp [adds]
  | cas c a =>
    simp only [exec, Res.ok.injEq] at h
    split at h
    · rename_i hc; cases h; subst hc; simp [adds]
    · rename_i hc; cases h; simp [adds, hc]

/-- `hist` is what happens when its operations are made one after the other from `v0` on, ending with `v`. -/
def Seq {w : Nat} (v0 : BitVec w) : List (Nat × Op w × Ret w) → BitVec w → Prop
  | [], v => v = v0
  | e :: l, v => ∃ v1, exec v0 e.2.1 = .ok (v1, e.2.2) ∧ Seq v1 l v

theorem seq_snoc {w : Nat} {v0 v v1 : BitVec w} {h : List (Nat × Op w × Ret w)} {i : Nat} {o : Op w} {r : Ret w} (hs : Seq v0 h v) (he : exec v o = .ok (v1, r)) :
    Seq v0 (h ++ [(i, o, r)]) v1 := by
  induction h generalizing v0 with
  | nil => cases hs; exact ⟨v1, he, rfl⟩
  | cons e l ih => obtain ⟨v2, h1, h2⟩ := hs; exact ⟨v2, h1, ih h2⟩

theorem seq_append {w : Nat} {v0 v : BitVec w} {a b : List (Nat × Op w × Ret w)} (h : Seq v0 (a ++ b) v) : ∃ m, Seq v0 a m ∧ Seq m b v := by
  induction a generalizing v0 with
  | nil => exact ⟨v0, rfl, h⟩
  | cons e l ih => obtain ⟨v1, h1, h2⟩ := h; obtain ⟨m, h3, h4⟩ := ih h2; exact ⟨m, ⟨v1, h1, h3⟩, h4⟩

theorem step_some {w : Nat} {s s' : St w} {i : Nat} (h : step s i = .ok s') :
    ∃ o os v r, s.prog i = o :: os ∧ exec s.val o = .ok (v, r) ∧ s' = { val := v, prog := fun j => if j = i then os else s.prog j, hist := s.hist ++ [(i, o, r)] } := by
  unfold step at h
  split at h
  · cases h
  · rename_i o os hp
    split at h
    · rename_i v r he; cases h; exact ⟨o, os, v, r, hp, he, rfl⟩
    · cases h
    · cases h

/-! ## Properties -/

/-- **C70.** However threads interleave, the result is that of the same operations made one after the other, each thread's in the order of its program, none lost and none twice. -/
theorem atom_linear {w : Nat} {v0 : BitVec w} {P : Nat → List (Op w)} {s : St w} (h : Reach v0 P s) :
    Seq v0 s.hist s.val ∧ ∀ i, ofThread s.hist i ++ s.prog i = P i := by
  induction h with
  | init => exact ⟨rfl, fun i => rfl⟩
  | step i hr hst ih =>
    obtain ⟨o, os, v, r, hp, he, rfl⟩ := step_some hst
    refine ⟨seq_snoc ih.1 he, fun j => ?_⟩
    have := ih.2 j
    unfold ofThread at this ⊢
    rw [List.filter_append, List.map_append]
    by_cases hj : j = i
    · subst hj
      simp only [List.filter_cons, beq_self_eq_true, if_true, List.filter_nil, List.map_cons, List.map_nil, List.append_assoc, List.singleton_append]
      rw [hp] at this; exact this
    · have hji : (i == j) = false := by simp; exact fun c => hj c.symm
      simp only [List.filter_cons, hji, if_neg hj, List.filter_nil, List.map_nil, List.append_nil]
      simpa using this

/-- **C70.** As long as a thread has something to do it can do it, unless that is the one call that is undefined: nobody ever waits. -/
theorem atom_never_blocks {w : Nat} (s : St w) (i : Nat) (o : Op w) (os : List (Op w)) (hp : s.prog i = o :: os) (hm : ∀ v, o = .sub v → w = 32 → v ≠ BitVec.intMin w) :
    ∃ s', step s i = .ok s' ∧ s'.prog i = os := by
  unfold step
  rw [hp]
  cases o with
  | sub v =>
    by_cases hw : w = 32
    · simp only [exec, if_pos hw, if_neg (hm v rfl hw)]; exact ⟨_, rfl, by simp⟩
    · simp only [exec, if_neg hw]; exact ⟨_, rfl, by simp⟩
  | cas c v => simp only [exec]; split <;> exact ⟨_, rfl, by simp⟩
  | _ => exact ⟨_, rfl, by simp⟩

theorem seq_total {w : Nat} {v0 v : BitVec w} {h : List (Nat × Op w × Ret w)} (hs : Seq v0 h v) (ha : ∀ e ∈ h, adds e.2.1 = true) : v = v0 + sum (h.map (fun e => amount e.2.1)) := by
  induction h generalizing v0 with
  | nil => rw [show v = v0 from hs]; simp [sum]
  | cons e l ih =>
    obtain ⟨v1, h1, h2⟩ := hs
    rw [ih h2 (fun x hx => ha x (List.mem_cons_of_mem _ hx)), (exec_ok h1).1 (ha e (by simp))]
    simp only [List.map_cons, sum, BitVec.add_assoc]

/-- **C70.** If only adding operations are made, the value is the initial one plus all that was added (modulo the width), whoever added it when. -/
theorem atom_total {w : Nat} {v0 : BitVec w} {P : Nat → List (Op w)} {s : St w} (h : Reach v0 P s) (ha : ∀ e ∈ s.hist, adds e.2.1 = true) :
    s.val = v0 + sum (s.hist.map (fun e => amount e.2.1)) := seq_total (atom_linear h).1 ha

theorem seq_tickets {w : Nat} {v0 v : BitVec w} {h : List (Nat × Op w × Ret w)} (hs : Seq v0 h v) (ha : ∀ e ∈ h, e.2.1 = .inc) :
    h.map (fun e => e.2.2) = (List.range h.length).map (fun k => Ret.num (v0 + BitVec.ofNat w (k + 1))) := by
  induction h generalizing v0 with
  | nil => rfl
  | cons e l ih =>
    obtain ⟨v1, h1, h2⟩ := hs
    have hi := ha e (by simp)
    have hr := (exec_ok h1).2.1 hi
    have hv := (exec_ok h1).1 (by rw [hi]; rfl)
    rw [hi] at hv
    rw [List.map_cons, ih h2 (fun x hx => ha x (List.mem_cons_of_mem _ hx)), List.length_cons, List.range_succ_eq_map, List.map_cons, List.map_map, hr]
    congr 1
    apply List.map_congr_left
    intro k _
    simp only [Function.comp, hv, amount]
    congr 1
    rw [BitVec.add_assoc]
    congr 1
    apply BitVec.eq_of_toNat_eq
    simp only [BitVec.toNat_add, BitVec.toNat_ofNat]
    rw [show (1 : BitVec w).toNat = 1 % 2 ^ w from by simp [BitVec.toNat_ofNat]]
    simp only [← Nat.add_mod]
    congr 1; omega

/-- **C70.** If threads only count up, every call gets a number of its own: the k-th call in effect gets the initial value plus k; no two are equal before the counter wraps around. -/
theorem atom_tickets {w : Nat} {v0 : BitVec w} {P : Nat → List (Op w)} {s : St w} (h : Reach v0 P s) (ha : ∀ e ∈ s.hist, e.2.1 = .inc) :
    s.hist.map (fun e => e.2.2) = (List.range s.hist.length).map (fun k => Ret.num (v0 + BitVec.ofNat w (k + 1))) ∧
    (s.hist.length ≤ 2 ^ w → (s.hist.map (fun e => e.2.2)).Nodup) := by
  have h1 := seq_tickets (atom_linear h).1 ha
  refine ⟨h1, fun hl => ?_⟩
  rw [h1, List.nodup_iff_pairwise_ne, List.pairwise_map]
  have hr : (List.range s.hist.length).Pairwise (fun a b => a < b) := List.pairwise_lt_range
  refine (List.Pairwise.and_mem.mp hr).imp ?_
  intro a b ⟨ha', hb', hab⟩ he
  rw [List.mem_range] at ha' hb'
  injection he with he
  have := congrArg (fun y => y - v0) he
  simp only [BitVec.add_comm v0, BitVec.add_sub_cancel] at this
  have := congrArg BitVec.toNat this
  simp only [BitVec.toNat_ofNat] at this
  have hd : (b + 1 - (a + 1)) % 2 ^ w = 0 := Nat.sub_mod_eq_zero_of_mod_eq this.symm
  rw [Nat.mod_eq_of_lt (by omega)] at hd
  omega

/-- References after a history of taking and giving up references, starting with `k`: none if somebody gave one up (or took one) when there was none. -/
def refsAfter {w : Nat} (k : Nat) : List (Nat × Op w × Ret w) → Option Nat
  | [] => some k
  | (_, .inc, _) :: l => if k = 0 then none else refsAfter (k + 1) l
  | (_, .dec, _) :: l => if k = 0 then none else refsAfter (k - 1) l
  | _ :: _ => none

theorem seq_refs {w : Nat} {v0 v : BitVec w} {h : List (Nat × Op w × Ret w)} {k n : Nat} (hs : Seq v0 h v) (h0 : v0 = BitVec.ofNat w k) (hr : refsAfter k h = some n)
    (hmax : k + h.length < 2 ^ w) :
    v = BitVec.ofNat w n ∧ (n = 0 → h ≠ [] → ∃ l e, h = l ++ [e] ∧ e.2.1 = .dec ∧ e.2.2 = .num 0) ∧
    (∀ l e r, h = l ++ e :: r → e.2.2 = .num 0 → r = [] ∧ n = 0) := by
  induction h generalizing v0 k with
  | nil =>
    cases hs
    simp only [refsAfter, Option.some.injEq] at hr
    subst hr
    exact ⟨h0, fun _ hc => absurd rfl hc, fun l e r hc => by simp at hc⟩
  | cons e l ih =>
    obtain ⟨i, o, r⟩ := e
    obtain ⟨v1, h1, h2⟩ := hs
    simp only [List.length_cons] at hmax
    have hnz : ∀ m, m < 2 ^ w → m ≠ 0 → BitVec.ofNat w m ≠ 0 := by
      intro m hm hm0 hc
      have := congrArg BitVec.toNat hc
      simp only [BitVec.toNat_ofNat, Nat.mod_eq_of_lt hm] at this
      exact hm0 (by simpa using this)
    have go : ∀ k', k' + l.length < 2 ^ w → v1 = BitVec.ofNat w k' → r = .num v1 → refsAfter k' l = some n → k ≠ 0 → (k' = 0 → o = .dec) →
        v = BitVec.ofNat w n ∧ (n = 0 → (i, o, r) :: l ≠ [] → ∃ l' e, (i, o, r) :: l = l' ++ [e] ∧ e.2.1 = .dec ∧ e.2.2 = .num 0) ∧
        (∀ l' e r', (i, o, r) :: l = l' ++ e :: r' → e.2.2 = .num 0 → r' = [] ∧ n = 0) := by
      intro k' hm hv1 hrv hra hk hdec
      obtain ⟨a1, a2, a3⟩ := ih h2 hv1 hra (by omega)
      have hzero : v1 = 0 ↔ k' = 0 := by
        constructor
        · intro hz
          by_cases hk' : k' = 0
          · exact hk'
          · exact absurd (hv1 ▸ hz) (hnz k' (by omega) hk')
        · intro hz; rw [hv1, hz]; rfl
      refine ⟨a1, ?_, ?_⟩
      · intro hn _
        by_cases hl : l = []
        · subst hl
          simp only [refsAfter, Option.some.injEq] at hra
          have hk0 : k' = 0 := by omega
          exact ⟨[], _, rfl, hdec hk0, by rw [hrv, hzero.mpr hk0]⟩
        · obtain ⟨l', e, b1, b2, b3⟩ := a2 hn hl
          exact ⟨(i, o, r) :: l', e, by rw [b1]; rfl, b2, b3⟩
      · intro l' e r' hsplit he
        cases l' with
        | nil =>
          simp only [List.nil_append, List.cons.injEq] at hsplit
          obtain ⟨rfl, rfl⟩ := hsplit
          rw [hrv] at he
          injection he with he
          have hk0 := hzero.mp he
          rw [hk0] at hra
          cases l with
          | nil => simp only [refsAfter, Option.some.injEq] at hra; exact ⟨rfl, hra.symm⟩
          | cons x xs =>
            obtain ⟨xi, xo, xr⟩ := x
            cases xo <;> simp [refsAfter] at hra
        | cons x xs =>
          simp only [List.cons_append, List.cons.injEq] at hsplit
          exact a3 xs e r' hsplit.2 he
    cases o with
    | inc =>
      simp only [refsAfter] at hr
      split at hr
      · cases hr
      · rename_i hk
        have hv := (exec_ok h1).1 rfl
        have hrr : r = _ := (exec_ok h1).2.1 rfl
        refine go (k + 1) (by omega) ?_ (by rw [hrr, hv]; rfl) hr hk (by omega)
        rw [hv, h0]
        apply BitVec.eq_of_toNat_eq
        simp [amount, BitVec.toNat_add, BitVec.toNat_ofNat]
    | dec =>
      simp only [refsAfter] at hr
      split at hr
      · cases hr
      · rename_i hk
        have hv := (exec_ok h1).1 rfl
        have hrr : r = _ := (exec_ok h1).2.2.1 rfl
        refine go (k - 1) (by omega) ?_ (by rw [hrr, hv]; simp only [amount]; rw [BitVec.sub_eq_add_neg]) hr hk (fun _ => rfl)
        rw [hv, h0]
        simp only [amount]
        have e : BitVec.ofNat w k = BitVec.ofNat w (k - 1) + 1 := by
          apply BitVec.eq_of_toNat_eq
          rw [BitVec.toNat_add, BitVec.toNat_ofNat, BitVec.toNat_ofNat, show (1 : BitVec w).toNat = 1 % 2 ^ w from by simp [BitVec.toNat_ofNat], ← Nat.add_mod]
          congr 1; omega
        rw [e, BitVec.add_assoc, ← BitVec.sub_eq_add_neg, BitVec.sub_self, BitVec.add_zero]
    | _ => simp [refsAfter] at hr

/-- **C70.** Reference counting: if references are taken and given up only by those who have one, the variable is always the number of references; a call that gives up a reference gets 0
exactly if it was the last of all, and nothing happens afterwards; so exactly one thread frees the object, when nobody has a reference any more. -/
theorem atom_refcount {w : Nat} {P : Nat → List (Op w)} {s : St w} {k n : Nat} (h : Reach (BitVec.ofNat w k) P s) (hr : refsAfter k s.hist = some n) (hmax : k + s.hist.length < 2 ^ w) :
    s.val = BitVec.ofNat w n ∧ (n = 0 → s.hist ≠ [] → ∃ l e, s.hist = l ++ [e] ∧ e.2.1 = .dec ∧ e.2.2 = .num 0) ∧
    (∀ l e r, s.hist = l ++ e :: r → e.2.2 = .num 0 → r = [] ∧ n = 0) :=
  seq_refs (atom_linear h).1 rfl hr hmax

theorem seq_exchange {w : Nat} {v0 v : BitVec w} {h : List (Nat × Op w × Ret w)} (hs : Seq v0 h v) (a : Nat × Op w × Ret w → BitVec w) (ha : ∀ e ∈ h, e.2.1 = .set (a e)) :
    h.map (fun e => e.2.2) ++ [.num v] = .num v0 :: h.map (fun e => Ret.num (a e)) := by
  induction h generalizing v0 with
  | nil => rw [show v = v0 from hs]; rfl
  | cons e l ih =>
    obtain ⟨v1, h1, h2⟩ := hs
    obtain ⟨b1, b2⟩ := (exec_ok h1).2.2.2.2.2.1 _ (ha e (by simp))
    have := ih h2 (fun x hx => ha x (List.mem_cons_of_mem _ hx))
    rw [List.map_cons, List.cons_append, this, b1, b2, List.map_cons]

/-- **C70.** If threads only exchange values, every value stored is handed to exactly one later call or is still there: results followed by the value are the initial value followed by what was stored. -/
theorem atom_exchange {w : Nat} {v0 : BitVec w} {P : Nat → List (Op w)} {s : St w} (h : Reach v0 P s) (a : Nat × Op w × Ret w → BitVec w) (ha : ∀ e ∈ s.hist, e.2.1 = .set (a e)) :
    s.hist.map (fun e => e.2.2) ++ [.num s.val] = .num v0 :: s.hist.map (fun e => Ret.num (a e)) := seq_exchange (atom_linear h).1 a ha

/-- A lock taken with `cas 0 → x` (x not 0) and given back with `set 0`: who has it after a history. -/
def holder {w : Nat} (cur : Option Nat) : List (Nat × Op w × Ret w) → Option Nat
  | [] => cur
  | (i, .cas _ _, .bool true) :: l => holder (some i) l
  | (_, .set _, _) :: l => holder none l
  | _ :: l => holder cur l

/-- Only lock calls: `cas 0 → x` with `x` not 0, and `set 0`. -/
def LockOps {w : Nat} (h : List (Nat × Op w × Ret w)) : Prop := ∀ e ∈ h, e.2.1 = .set 0 ∨ ∃ x, x ≠ 0 ∧ e.2.1 = .cas 0 x

theorem seq_lock {w : Nat} {v0 v : BitVec w} {h : List (Nat × Op w × Ret w)} {cur : Option Nat} (hs : Seq v0 h v) (hl : LockOps h) (h0 : cur = none ↔ v0 = 0) :
    (holder cur h = none ↔ v = 0) ∧ ∀ l e r, h = l ++ e :: r → (∃ c x, e.2.1 = .cas c x) → (e.2.2 = .bool true ↔ holder cur l = none) := by
  induction h generalizing v0 cur with
  | nil =>
    cases hs
    exact ⟨h0, fun l e r hc => by simp at hc⟩
  | cons e t ih =>
    obtain ⟨i, o, r⟩ := e
    obtain ⟨v1, h1, h2⟩ := hs
    have hlt : LockOps t := fun x hx => hl x (List.mem_cons_of_mem _ hx)
    have key : ∀ cur', holder cur ((i, o, r) :: t) = holder cur' t → (∀ l, holder cur ((i, o, r) :: l) = holder cur' l) → (cur' = none ↔ v1 = 0) →
        ((∃ c x, o = .cas c x) → (r = .bool true ↔ cur = none)) →
        (holder cur ((i, o, r) :: t) = none ↔ v = 0) ∧ ∀ l e r', (i, o, r) :: t = l ++ e :: r' → (∃ c x, e.2.1 = .cas c x) → (e.2.2 = .bool true ↔ holder cur l = none) := by
      intro cur' e1 e2 e3 e4
      obtain ⟨a1, a2⟩ := ih h2 hlt e3
      refine ⟨by rw [e1]; exact a1, ?_⟩
      intro l e r' hsplit hc
      cases l with
      | nil =>
        simp only [List.nil_append, List.cons.injEq] at hsplit
        obtain ⟨rfl, rfl⟩ := hsplit
        exact e4 hc
      | cons x xs =>
        simp only [List.cons_append, List.cons.injEq] at hsplit
        obtain ⟨rfl, h4⟩ := hsplit
        rw [e2]
        exact a2 xs e r' h4 hc
    rcases hl (i, o, r) (by simp) with ho | ⟨x, hx, ho⟩
    · simp only at ho
      subst ho
      obtain ⟨b1, b2⟩ := (exec_ok h1).2.2.2.2.2.1 _ rfl
      exact key none rfl (fun _ => rfl) (by simp [b1]) (by rintro ⟨c, y, hc⟩; cases hc)
    · simp only at ho
      subst ho
      rcases (exec_ok h1).2.2.2.2.2.2 _ _ rfl with ⟨c1, c2, c3⟩ | ⟨c1, c2, c3⟩
      · simp only at c3
        subst c3
        refine key (some i) rfl (fun _ => rfl) ⟨fun h => by (cases h), fun h => absurd (c2 ▸ h) hx⟩ (fun _ => ?_)
        rw [h0]; simp [c1]
      · simp only at c3
        subst c3
        refine key cur rfl (fun _ => rfl) (by rw [h0, c2]) (fun _ => ?_)
        rw [h0]; exact ⟨fun h => by (cases h), fun h => absurd h c1⟩

/-- **C70.** A lock made of `katom_cas` (0 to something else) and `katom_set` (back to 0): an attempt succeeds exactly if nobody has the lock at that moment, so never two have it. -/
theorem atom_lock {w : Nat} {P : Nat → List (Op w)} {s : St w} (h : Reach (0 : BitVec w) P s) (hl : LockOps s.hist) :
    (holder none s.hist = none ↔ s.val = 0) ∧
    ∀ l e r, s.hist = l ++ e :: r → (∃ c x, e.2.1 = .cas c x) → (e.2.2 = .bool true ↔ holder none l = none) :=
  seq_lock (atom_linear h).1 hl (by simp)

/-- **C70.** Every single call: `katom_inc` and `katom_dec` give the new value, `katom_add`, `katom_sub` and `katom_set` the old one, `katom_get` the value, which it leaves; `katom_cas` stores exactly if it finds
what it compares with, and says whether it did. -/
theorem atom_results {w : Nat} (x : BitVec w) (c v : BitVec w) :
    exec x .inc = .ok (x + 1, .num (x + 1)) ∧ exec x .dec = .ok (x - 1, .num (x - 1)) ∧ exec x .get = .ok (x, .num x) ∧ exec x (.add v) = .ok (x + v, .num x) ∧
    ((w = 32 → v ≠ BitVec.intMin w) → exec x (.sub v) = .ok (x - v, .num x)) ∧ exec x (.set v) = .ok (v, .num x) ∧
    exec x (.cas c v) = .ok (if x = c then v else x, .bool (decide (x = c))) := by
  refine ⟨rfl, ?_, ?_, rfl, ?_, rfl, ?_⟩
  · simp [exec, addFetch, BitVec.sub_eq_add_neg]
  · simp [exec, fetchAdd]
  · intro h
    by_cases hw : w = 32
    · simp only [exec, if_pos hw, if_neg (h hw), fetchAdd, BitVec.sub_eq_add_neg]
    · simp only [exec, if_neg hw, fetchSub]
  · by_cases hx : x = c
    · simp [exec, hx]
    · simp [exec, hx]

/-! ## The hypotheses are met -/

/-- Thread 0 takes a reference and gives it up, threads 1 and 2 give up theirs. -/
def progs : Nat → List (Op 32)
  | 0 => [.inc, .dec]
  | 1 => [.dec]
  | 2 => [.dec]
  | _ => []

/-- Runs a schedule. -/
def runSched {w : Nat} (s : St w) : List Nat → Option (St w)
  | [] => some s
  | i :: is => match step s i with
    | .ok s1 => runSched s1 is
    | _ => none

theorem reach_runSched {w : Nat} {v0 : BitVec w} {P : Nat → List (Op w)} {s s' : St w} {is : List Nat} (h : Reach v0 P s) (hr : runSched s is = some s') : Reach v0 P s' := by
  induction is generalizing s with
  | nil => cases hr; exact h
  | cons i is ih =>
    simp only [runSched] at hr
    split at hr
    · rename_i s1 hs; exact ih (.step i h hs) hr
    · cases hr

example : ∃ s, Reach (BitVec.ofNat 32 2) progs s ∧ refsAfter 2 s.hist = some 0 ∧ s.hist.length = 4 ∧ s.hist.getLast? = some (2, .dec, .num 0) := by
  refine ⟨_, reach_runSched (is := [1, 0, 0, 2]) .init rfl, ?_⟩
  decide

example : ∃ s, Reach (0 : BitVec 32) (fun i => if i < 2 then [.cas 0 1, .set 0] else []) s ∧ holder none s.hist = some 0 ∧ s.hist.map (fun e => e.2.2) = [.bool true, .bool false] := by
  refine ⟨_, reach_runSched (is := [0, 1]) .init rfl, ?_⟩
  decide

example : ∃ s, Reach (7 : BitVec 16) (fun i => if i < 3 then [.inc] else []) s ∧ (s.hist.map (fun e => e.2.2)) = [.num 8, .num 9, .num 10] := by
  refine ⟨_, reach_runSched (is := [2, 0, 1]) .init rfl, ?_⟩
  decide

/-! ## Findings -/

/-- **Finding (C70).** `katom_sub` negates its argument as an `int32_t`: for -2147483648 this is undefined, while `katom_sub64` is defined for every argument. -/
theorem sub_least_undefined (x : BitVec 32) (y z : BitVec 64) : exec x (.sub (BitVec.intMin 32)) = .ub ∧ exec y (.sub z) = .ok (y - z, .num y) := by
  refine ⟨?_, rfl⟩
  simp [exec]

/-- **Finding (C70).** One reference given up too many is not seen in the result: `katom_dec` of 0 is 4294967295 as the `uint32_t` it returns, and the count then says that there are references. -/
theorem dec_below_zero : exec (0 : BitVec 32) .dec = .ok (4294967295#32, .num 4294967295#32) := rfl

end Kasync.Atom
