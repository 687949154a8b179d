import Verif.Mgr.Model
import Mathlib.Algebra.Order.Ring.Int
import Mathlib.Tactic.Ring
import Mathlib.Tactic.Push

/-! # Selector manager theorems: C27 -/

namespace Kasync.Mgr

theorem two_pow_div (i : Nat) : (2 : Int) ^ (i + 1) / 2 = 2 ^ i := by
  rw [pow_succ]; exact Int.mul_ediv_cancel _ (by omega)

theorem two_pow_pos (i : Nat) : (0 : Int) < 2 ^ i := Int.pow_pos (by omega)

theorem pow2Loop_ok (size : Int) (hs : 1 ≤ size) (rem i : Nat) (r : Int) (hr : rem = 0 → ∃ k, i = k + 1 ∧ r = 2 ^ k ∧ 2 ^ k ≤ size)
    (hi : i = 0 ∨ (2 : Int) ^ (i - 1) < size) (h1 : 1 ≤ i + rem) :
    ∃ k, k < i + rem ∧ pow2Loop size rem i r = 2 ^ k ∧ 2 ^ k ≤ size ∧ (size < 2 ^ (k + 1) ∨ k + 1 = i + rem) := by
  induction rem generalizing i r with
  | zero =>
    obtain ⟨k, rfl, rfl, h⟩ := hr rfl
    exact ⟨k, by omega, rfl, h, .inr rfl⟩
  | succ rem ih =>
    unfold pow2Loop
    split
    · rename_i e
      refine ⟨i, by omega, rfl, by omega, .inl ?_⟩
      have := two_pow_pos i
      rw [pow_succ]; omega
    · rename_i ne
      split
      · rename_i hgt
        cases i with
        | zero => simp at hgt; omega
        | succ k =>
          rw [two_pow_div]
          have h' : (2 : Int) ^ k < size := by rcases hi with h | h <;> simp_all
          exact ⟨k, by omega, rfl, by omega, .inl hgt⟩
      · rename_i hle
        have hlt : (2 : Int) ^ i < size := by omega
        obtain ⟨k, a, b, c, d⟩ := ih (i + 1) (2 ^ i) (fun _ => ⟨i, rfl, rfl, by omega⟩) (.inr (by simpa using hlt)) (by omega)
        exact ⟨k, by omega, b, c, by rcases d with d | d <;> [exact .inl d; (right; omega)]⟩

theorem pow2Loop_small (size : Int) (hs : size ≤ 0) (rem : Nat) : pow2Loop size rem 0 0 = 0 := by
  cases rem with
  | zero => rfl
  | succ rem =>
    unfold pow2Loop
    rw [if_neg (by simp; omega), if_pos (by simp; omega)]; rfl

/-- **C27**: the number of selectors is the largest power of two not above the request, but at least 1 and at most
`2^(maxBits-1)` (64 for `maxBits = 7`). -/
theorem pow2_spec (size : Int) (maxBits : Nat) (hb : 1 ≤ maxBits) :
    ∃ k, k < maxBits ∧ kglPow2 size maxBits = 2 ^ k ∧ (k = 0 ∨ 2 ^ k ≤ size) ∧ (size < 2 ^ (k + 1) ∨ k + 1 = maxBits) := by
  unfold kglPow2
  by_cases hs : 1 ≤ size
  · obtain ⟨k, a, b, c, d⟩ := pow2Loop_ok size hs maxBits 0 0 (by omega) (.inl rfl) (by omega)
    have := two_pow_pos k
    rw [b, if_neg (by omega)]
    exact ⟨k, by omega, rfl, .inr c, by simpa using d⟩
  · rw [pow2Loop_small size (by omega)]
    exact ⟨0, by omega, rfl, .inl rfl, .inl (by simp; omega)⟩

/-- the table has 2^k entries and the mask is 2^k - 1 -/
structure MInv (m : Mgr) : Prop where
  pow : ∃ k, k ≤ 6 ∧ m.count = 2 ^ k ∧ m.hash.toNat = 2 ^ k - 1
  pos : ∀ i, i < m.count → ∀ k, k < 2 → 0 < m.timeouts i k

theorem pow2_7 (size : Int) : ∃ k, k ≤ 6 ∧ (kglPow2 size 7).toNat = 2 ^ k ∧
    (BitVec.ofNat 32 ((kglPow2 size 7).toNat) - 1).toNat = 2 ^ k - 1 := by
  obtain ⟨k, hk, e, _, _⟩ := pow2_spec size 7 (by omega)
  refine ⟨k, by omega, by rw [e]; norm_cast, ?_⟩
  rw [e]
  have h2 : ((2 : Int) ^ k).toNat = 2 ^ k := by norm_cast
  rw [h2]
  have hk' : k = 0 ∨ k = 1 ∨ k = 2 ∨ k = 3 ∨ k = 4 ∨ k = 5 ∨ k = 6 := by omega
  rcases hk' with rfl | rfl | rfl | rfl | rfl | rfl | rfl <;> rfl

theorem setTimeOut_inv {m : Mgr} (h : MInv m) (q : Nat) (x : Int) : MInv (setTimeOut m q x) := by
  refine ⟨h.pow, ?_⟩
  intro i hi k hk
  have hi' : i < m.count := hi
  show 0 < if i < m.count ∧ k = q then (if x ≤ 0 then 60000 else x) else m.timeouts i k
  have := h.pos i hi' k hk
  by_cases h1 : i < m.count ∧ k = q
  · rw [if_pos h1]; split <;> omega
  · rw [if_neg h1]; exact this

theorem setTimeouts_inv {m : Mgr} (h : MInv m) (a b : Int) : MInv (setTimeouts m a b) :=
  setTimeOut_inv (setTimeOut_inv h _ _) _ _

theorem init_inv (size : Int) : MInv (init size) := by
  unfold init
  refine setTimeouts_inv ⟨?_, ?_⟩ 60 60
  · obtain ⟨k, a, b, c⟩ := pow2_7 size
    exact ⟨k, a, b, c⟩
  · intro i _ k _; show (0 : Int) < 60000; omega

theorem grow_inv {m : Mgr} (h : MInv m) (n : Int) (safe : Bool) : MInv (grow m n safe).1 ∧ m.count ≤ (grow m n safe).1.count := by
  unfold grow
  dsimp only
  split
  · exact ⟨h, Nat.le_refl _⟩
  · rename_i h1
    split
    · exact ⟨h, Nat.le_refl _⟩
    · obtain ⟨k, a, b, c⟩ := pow2_7 n
      refine ⟨⟨⟨k, a, b, c⟩, ?_⟩, ?_⟩
      · intro i hi j hj
        dsimp only
        split
        · omega
        · rename_i hn
          exact h.pos i (by dsimp only at hi; omega) j hj
      · dsimp only; omega

/-- A manager after `selector_manager_init` and any number of `grow` and `set_timeout` calls and selector choices. -/
inductive Built : Mgr → Prop where
  | init (size : Int) : Built (init size)
  | grow {m : Mgr} (n : Int) (safe : Bool) : Built m → Built (grow m n safe).1
  | setTimeouts {m : Mgr} (a b : Int) : Built m → Built (setTimeouts m a b)
  | choose {m m' : Mgr} (loads : Nat → Int) (k : Nat) : Built m → perfect m loads = some (k, m') → Built m'

theorem built_inv {m : Mgr} (h : Built m) : MInv m := by
  induction h with
  | init size => exact init_inv size
  | grow n safe _ ih => exact (grow_inv ih n safe).1
  | setTimeouts a b _ ih => exact setTimeouts_inv ih a b
  | choose loads k _ he ih =>
    unfold perfect at he
    split at he
    · cases he
    · simp only [Option.some.injEq, Prod.mk.injEq] at he
      obtain ⟨_, rfl⟩ := he
      exact ⟨ih.pow, ih.pos⟩

/-- **C27**: between 1 and 64 selectors, a power of two, and growing never loses one. -/
theorem selector_count_power_of_two (m : Mgr) (h : Built m) : (∃ k, k ≤ 6 ∧ m.count = 2 ^ k) ∧
    ∀ n safe, m.count ≤ (grow m n safe).1.count := by
  obtain ⟨k, a, b, _⟩ := (built_inv h).pow
  exact ⟨⟨k, a, b⟩, fun n safe => (grow_inv (built_inv h) n safe).2⟩

theorem byIndex_mod {m : Mgr} (h : MInv m) (i : BitVec 32) : byIndex m i = i.toNat % m.count := by
  obtain ⟨k, a, b, c⟩ := h.pow
  unfold byIndex
  rw [BitVec.toNat_and, c, b, Nat.and_two_pow_sub_one_eq_mod]

/-- **C27**: any index, also a negative or huge one, is mapped to an existing selector, namely the index modulo the number of
selectors. -/
theorem selector_by_index_exists (m : Mgr) (h : Built m) (i : BitVec 32) :
    byIndex m i < m.count ∧ byIndex m i = i.toNat % m.count := by
  have inv := built_inv h
  have e := byIndex_mod inv i
  obtain ⟨k, a, b, c⟩ := inv.pow
  refine ⟨?_, e⟩
  rw [e]
  exact Nat.mod_lt _ (by rw [b]; exact Nat.pow_pos (by omega))

theorem byIndex_add {m : Mgr} (h : MInv m) (i : BitVec 32) (j : Nat) :
    byIndex m (i + BitVec.ofNat 32 j) = (i.toNat + j) % m.count := by
  obtain ⟨k, a, b, c⟩ := h.pow
  rw [byIndex_mod h, BitVec.toNat_add, BitVec.toNat_ofNat]
  have hd : m.count ∣ 2 ^ 32 := by rw [b]; exact Nat.pow_dvd_pow 2 (by omega)
  rw [Nat.mod_mod_of_dvd _ hd, Nat.add_mod, Nat.mod_mod_of_dvd _ hd, ← Nat.add_mod]

theorem perfectLoop_none {m : Mgr} {loads : Nat → Int} {rem : Nat} {i : BitVec 32} (h : perfectLoop m loads rem i = none) :
    ∀ j, j < rem → loads (byIndex m (i + BitVec.ofNat 32 (j + 1))) + 64 ≤ loads (byIndex m (i + BitVec.ofNat 32 j)) := by
  induction rem generalizing i with
  | zero => intro j hj; omega
  | succ rem ih =>
    unfold perfectLoop at h
    split at h
    · cases h
    · rename_i hn
      intro j hj
      cases j with
      | zero => simp at hn ⊢; omega
      | succ j =>
        have := ih h j (by omega)
        have e1 : i + 1 + BitVec.ofNat 32 (j + 1) = i + BitVec.ofNat 32 (j + 1 + 1) := by
          rw [BitVec.add_assoc]; congr 1; apply BitVec.eq_of_toNat_eq; simp [BitVec.toNat_add]; omega
        have e2 : i + 1 + BitVec.ofNat 32 j = i + BitVec.ofNat 32 (j + 1) := by
          rw [BitVec.add_assoc]; congr 1; apply BitVec.eq_of_toNat_eq; simp [BitVec.toNat_add]; omega
        rw [e1, e2] at this
        exact this

theorem perfectLoop_some {m : Mgr} {loads : Nat → Int} {rem : Nat} {i i' : BitVec 32} {k : Nat}
    (h : perfectLoop m loads rem i = some (k, i')) :
    ∃ j : BitVec 32, k = byIndex m j ∧ i' = j + 1 ∧ loads k < loads (byIndex m (j + 1)) + 64 := by
  induction rem generalizing i with
  | zero => cases h
  | succ rem ih =>
    unfold perfectLoop at h
    split at h
    · rename_i hn
      simp only [Option.some.injEq, Prod.mk.injEq] at h
      obtain ⟨rfl, rfl⟩ := h
      exact ⟨i, rfl, rfl, hn⟩
    · exact ih h

/-- **C27**: choosing a selector never fails the assertion: it returns an existing selector whose load is less than 64 above the
load of the next selector, for all loads and every starting index (also when the index counter wraps around). -/
theorem perfect_selector_exists (m : Mgr) (h : Built m) (loads : Nat → Int) :
    ∃ k m', perfect m loads = some (k, m') ∧ k < m.count ∧ loads k < loads ((k + 1) % m.count) + 64 := by
  have inv := built_inv h
  cases hp : perfectLoop m loads m.count m.index with
  | none =>
    exfalso
    have hd := perfectLoop_none hp
    simp only [byIndex_add inv] at hd
    have hc : ∀ j, j ≤ m.count → loads ((m.index.toNat + j) % m.count) + 64 * j ≤ loads (m.index.toNat % m.count) := by
      intro j
      induction j with
      | zero => intro _; simp
      | succ j ih =>
        intro hj
        have a := ih (by omega)
        have b := hd j (by omega)
        push_cast
        omega
    have := hc m.count (Nat.le_refl _)
    rw [Nat.add_mod_right] at this
    obtain ⟨k, a, b, c⟩ := inv.pow
    have : 0 < m.count := by rw [b]; exact Nat.pow_pos (by omega)
    omega
  | some r =>
    obtain ⟨k, i'⟩ := r
    obtain ⟨j, rfl, rfl, hl⟩ := perfectLoop_some hp
    refine ⟨byIndex m j, { m with index := j + 1 }, by simp only [perfect, hp], (selector_by_index_exists m h j).1, ?_⟩
    have e1 := byIndex_mod inv j
    have e2 := byIndex_add inv j 1
    have e3 : j + BitVec.ofNat 32 1 = j + 1 := rfl
    rw [e3] at e2
    rw [e2] at hl
    rw [e1] at hl ⊢
    rwa [Nat.mod_add_mod]

/-- **C27**: with equal loads the choice goes round all selectors in turn. -/
theorem perfect_selector_round_robin (m : Mgr) (h : Built m) (c : Int) :
    ∃ m', perfect m (fun _ => c) = some (m.index.toNat % m.count, m') ∧ m'.index = m.index + 1 := by
  have inv := built_inv h
  obtain ⟨k, a, b, _⟩ := inv.pow
  have hpos : 0 < m.count := by rw [b]; exact Nat.pow_pos (by omega)
  obtain ⟨n, hn⟩ : ∃ n, m.count = n + 1 := ⟨m.count - 1, by omega⟩
  have : perfectLoop m (fun _ => c) m.count m.index = some (byIndex m m.index, m.index + 1) := by
    rw [hn]; unfold perfectLoop; rw [if_pos (by omega)]
  refine ⟨{ m with index := m.index + 1 }, ?_, rfl⟩
  simp only [perfect, this, byIndex_mod inv]

/-- **C27**: whatever is configured, every selector's connect and read/write timeouts are positive (so the timeout check of
C25 always ends). -/
theorem timeouts_positive (m : Mgr) (h : Built m) (i : Nat) (hi : i < m.count) (k : Nat) (hk : k < 2) : 0 < m.timeouts i k :=
  (built_inv h).pos i hi k hk

/-- **C27**: configuring the timeouts sets the connect timeout (list 0) and the read/write timeout (list 1) of every existing selector
to the given seconds; a connect time that is not positive means the read/write time, and a read/write time that is not positive a minute. -/
theorem timeouts_configured (m : Mgr) (connectSec rwSec : Int) (i : Nat) (hi : i < m.count) :
    (0 < connectSec → (setTimeouts m connectSec rwSec).timeouts i 0 = connectSec * 1000) ∧
    (connectSec ≤ 0 → 0 < rwSec → (setTimeouts m connectSec rwSec).timeouts i 0 = rwSec * 1000) ∧
    (0 < rwSec → (setTimeouts m connectSec rwSec).timeouts i 1 = rwSec * 1000) ∧
    (rwSec ≤ 0 → (setTimeouts m connectSec rwSec).timeouts i 1 = 60000) ∧
    (∀ j k, (m.count ≤ j ∨ 2 ≤ k) → (setTimeouts m connectSec rwSec).timeouts j k = m.timeouts j k) := by
  unfold setTimeouts setTimeOut
  dsimp only
  refine ⟨?_, ?_, ?_, ?_, ?_⟩ <;> grind

/-- **C27**: the table of selectors grows only from one selector to more, on the thread of selector 0, and reports success exactly then;
otherwise nothing changes. -/
theorem grow_succeeds_iff (m : Mgr) (h : Built m) (newSize : Int) (safe : Bool) :
    ((grow m newSize safe).2 = true ↔ m.count = 1 ∧ safe = true ∧ 2 ≤ newSize) ∧
    ((grow m newSize safe).2 = true → m.count < (grow m newSize safe).1.count ∧ ((grow m newSize safe).1.count : Int) ≤ newSize) ∧
    ((grow m newSize safe).2 = false → (grow m newSize safe).1 = m) := by
  have inv := built_inv h
  obtain ⟨c, _, hc, _⟩ := inv.pow
  have hpos : 0 < m.count := by rw [hc]; exact Nat.pow_pos (by omega)
  obtain ⟨k, hk, e, hle, hlt⟩ := pow2_spec newSize 7 (by omega)
  have hone : (2 : Int) ≤ newSize → 1 < kglPow2 newSize 7 := by
    intro h2
    rw [e]
    cases k with
    | zero => rcases hlt with h | h <;> [(norm_num at h; omega); omega]
    | succ k => have := two_pow_pos k; rw [pow_succ]; omega
  have htwo : 1 < kglPow2 newSize 7 → kglPow2 newSize 7 ≤ newSize := by
    intro h2
    rw [e] at h2 ⊢
    rcases hle with h | h
    · subst h; norm_num at h2
    · exact h
  unfold grow
  dsimp only
  split
  · rename_i h1
    refine ⟨⟨fun hf => (by cases hf), ?_⟩, fun hf => (by cases hf), fun _ => rfl⟩
    rintro ⟨a, _, b⟩
    have := hone b
    omega
  · split
    · rename_i h1 h2
      refine ⟨⟨fun hf => (by cases hf), ?_⟩, fun hf => (by cases hf), fun _ => rfl⟩
      rintro ⟨a, b, _⟩
      rcases h2 with h2 | h2
      · omega
      · rw [b] at h2; cases h2
    · rename_i h1 h2
      have h3 : 1 < kglPow2 newSize 7 := by omega
      have h4 := htwo h3
      refine ⟨⟨fun _ => ⟨by omega, ?_, by omega⟩, fun _ => rfl⟩, fun _ => ⟨by dsimp only; omega, by dsimp only; omega⟩, fun hf => by cases hf⟩
      cases safe with
      | true => rfl
      | false => exact absurd (.inr rfl) h2

/-- **C27**, on-ready callbacks: every callback registered before or after the start is posted to a selector exactly once;
those registered before are posted at the start, last registered first. -/
theorem on_ready_exactly_once (ops : List ROp) (s : RSt) (h : run rstep {} ops = some s) :
    (s.posted ++ s.waiting).Perm (ops.filterMap (fun o => match o with | .onReady c => some c | .init => none)) ∧
      (s.ready = true → s.waiting = []) := by
  have gen : ∀ (ops : List ROp) (s0 s : RSt), (s0.ready = true → s0.waiting = []) → run rstep s0 ops = some s →
      (s.posted ++ s.waiting).Perm ((s0.posted ++ s0.waiting) ++ ops.filterMap (fun o => match o with | .onReady c => some c | .init => none)) ∧
      (s.ready = true → s.waiting = []) := by
    intro ops
    induction ops with
    | nil => intro s0 s h0 h; simp only [run, Option.some.injEq] at h; subst h; simp; exact h0
    | cons o os ih =>
      intro s0 s h0 h
      unfold run at h
      cases o with
      | onReady c =>
        simp only [rstep] at h
        split at h
        · rename_i s1 hs
          split at hs
          · rename_i hr
            simp only [Res.ok.injEq] at hs; subst hs
            obtain ⟨a, b⟩ := ih { s0 with posted := s0.posted ++ [c] } s (fun _ => h0 hr) h
            refine ⟨a.trans ?_, b⟩
            simp only [h0 hr, List.append_nil, List.filterMap_cons]
            simp
          · rename_i hr
            simp only [Res.ok.injEq] at hs; subst hs
            obtain ⟨a, b⟩ := ih { s0 with waiting := c :: s0.waiting } s (fun hr' => absurd hr' hr) h
            refine ⟨a.trans ?_, b⟩
            simp only [List.filterMap_cons]
            refine List.Perm.trans (List.Perm.append_right _ List.perm_middle) ?_
            exact (List.perm_middle (a := c) (l₁ := s0.posted ++ s0.waiting)).symm
        · cases h
      | init =>
        simp only [rstep] at h
        split at h
        · rename_i s1 hs
          split at hs
          · cases hs
          · simp only [Res.ok.injEq] at hs; subst hs
            obtain ⟨a, b⟩ := ih _ s (fun _ => rfl) h
            refine ⟨a.trans ?_, b⟩
            simp
        · cases h
  simpa using gen ops {} s (by simp) h

/-! ## Non-vacuity and findings -/

example : (init 10).count = 8 ∧ (init 1000).count = 64 ∧ (init (-3)).count = 1 ∧ (init 8).hash = 7#32 := by decide
example : (grow (init 1) 4 true).1.count = 4 ∧ (grow (init 2) 16 true).2 = false := by decide
example : Built (setTimeouts (init 4) (-1) 0) := .setTimeouts _ _ (.init 4)
example : byIndex (init 8) (-3#32) = 5 := by decide
example : (perfect (init 4) (fun i => if i = 0 then 1000 else if i = 1 then 500 else 0)).map Prod.fst = some 2 := by decide
example : (run rstep {} [.onReady 1, .onReady 2, .init, .onReady 3]).map RSt.posted = some [2, 1, 3] := by decide

/-- **Finding (C27).** The choice only compares neighbours: the most loaded selector, far above the average, may be chosen. -/
theorem perfect_may_choose_most_loaded :
    (perfect (init 4) (fun i => if i < 2 then 1000 else 0)).map Prod.fst = some 0 := by decide

end Kasync.Mgr
