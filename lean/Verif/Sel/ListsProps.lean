import Verif.Sel.Lists

/-! # Connection list theorems: C25 and the list half of C26 -/

namespace Kasync.Sel

/-- Any configuration of timeouts, connections not yet listed. -/
def linit (timeout : Nat → Int) (conn : Nat → Conn) : LSt := { timeout := timeout, conn := conn }

/-- all listed connections -/
def LSt.all (s : LSt) : List Nat := s.lists 0 ++ s.lists 1 ++ s.lists 2

structure LInv (s : LSt) : Prop where
  nodup : s.all.Nodup
  other : ∀ k, 3 ≤ k → s.lists k = []
  linked : ∀ i, s.linked i = true ↔ i ∈ s.all
  count : s.count = s.all.length

theorem mem_all {s : LSt} (h : LInv s) {i k : Nat} (hi : i ∈ s.lists k) : i ∈ s.all ∧ k < 3 := by
  have hk : k < 3 := by
    rcases Nat.lt_or_ge k 3 with hk | hk
    · exact hk
    · rw [h.other k hk] at hi; cases hi
  refine ⟨?_, hk⟩
  unfold LSt.all
  have : k = 0 ∨ k = 1 ∨ k = 2 := by omega
  rcases this with rfl | rfl | rfl <;> simp [hi]

theorem all_unlink_perm (s : LSt) (i : Nat) (hn : s.all.Nodup) :
    (s.unlink i).all = s.all.erase i := by
  unfold LSt.all LSt.unlink at *
  dsimp only at *
  rw [List.nodup_append, List.nodup_append] at hn
  obtain ⟨⟨n0, n1, d01⟩, n2, d2⟩ := hn
  by_cases h0 : i ∈ s.lists 0
  · have h1 : i ∉ s.lists 1 := fun h => d01 i h0 i h rfl
    have h2 : i ∉ s.lists 2 := fun h => d2 i (by simp [h0]) i h rfl
    rw [List.erase_append_left _ (by simp [h0]), List.erase_append_left _ h0, List.erase_of_not_mem h1,
      List.erase_of_not_mem h2]
  · by_cases h1 : i ∈ s.lists 1
    · have h2 : i ∉ s.lists 2 := fun h => d2 i (by simp [h1]) i h rfl
      rw [List.erase_append_left _ (by simp [h1]), List.erase_append_right _ h0, List.erase_of_not_mem h0,
        List.erase_of_not_mem h2]
    · rw [List.erase_append_right _ (by simp [h0, h1]), List.erase_of_not_mem h0, List.erase_of_not_mem h1]

theorem all_append_perm (s : LSt) (i k : Nat) (hk : k < 3) : (s.append i k).all.Perm (i :: s.all) := by
  unfold LSt.all LSt.append
  dsimp only
  have : k = 0 ∨ k = 1 ∨ k = 2 := by omega
  rcases this with rfl | rfl | rfl
  · simp only [if_true, if_neg (show ¬ (1 : Nat) = 0 by omega), if_neg (show ¬ (2 : Nat) = 0 by omega)]
    simp only [List.append_assoc, List.singleton_append]
    exact List.perm_middle
  · simp only [if_true, if_neg (show ¬ (0 : Nat) = 1 by omega), if_neg (show ¬ (2 : Nat) = 1 by omega)]
    simp only [List.append_assoc, List.singleton_append]
    rw [← List.append_assoc, ← List.append_assoc]
    exact List.perm_middle
  · simp only [if_true, if_neg (show ¬ (0 : Nat) = 2 by omega), if_neg (show ¬ (1 : Nat) = 2 by omega)]
    rw [← List.append_assoc]
    exact List.perm_append_comm

/-- the same lists, links and counter -/
def SameL (s s' : LSt) : Prop := s'.lists = s.lists ∧ s'.linked = s.linked ∧ s'.count = s.count

theorem LInv.same {s s' : LSt} (h : LInv s) (e : SameL s s') : LInv s' := by
  obtain ⟨e1, e2, e3⟩ := e
  have ea : s'.all = s.all := by unfold LSt.all; rw [e1]
  exact ⟨by rw [ea]; exact h.nodup, by rw [e1]; exact h.other, by rw [e2, ea]; exact h.linked, by rw [e3, ea]; exact h.count⟩

/-- facts after removing a linked element and clearing its link -/
theorem LInv.remove {s : LSt} (h : LInv s) {i : Nat} (hi : i ∈ s.all) :
    LInv { (s.unlink i).clear i with count := s.count - 1 } ∧ i ∉ ((s.unlink i).clear i).all ∧ 0 < s.count := by
  have e : ((s.unlink i).clear i).all = s.all.erase i := all_unlink_perm s i h.nodup
  have e' : (LSt.all { (s.unlink i).clear i with count := s.count - 1 }) = s.all.erase i := e
  have hni : i ∉ s.all.erase i := h.nodup.not_mem_erase
  have hpos := List.length_pos_of_mem hi
  refine ⟨⟨?_, ?_, ?_, ?_⟩, by rw [e]; exact hni, by rw [h.count]; omega⟩
  · rw [e']; exact h.nodup.erase i
  · intro k hk
    show (s.lists k).erase i = []
    rw [h.other k hk]; rfl
  · intro j
    rw [e', h.nodup.mem_erase_iff]
    show (if j = i then false else s.linked j) = true ↔ _
    by_cases hj : j = i
    · simp [hj]
    · simp [hj, h.linked j]
  · rw [e', List.length_erase_of_mem hi]
    show s.count - 1 = _
    rw [h.count]; omega

theorem LInv.append {s : LSt} (h : LInv s) {i k : Nat} (hk : k < 3) (hi : i ∉ s.all) :
    LInv ({ s with count := s.count + 1 }.append i k) := by
  have p := all_append_perm { s with count := s.count + 1 } i k hk
  have ea : ({ s with count := s.count + 1 } : LSt).all = s.all := rfl
  rw [ea] at p
  refine ⟨p.nodup_iff.2 (List.nodup_cons.2 ⟨hi, h.nodup⟩), ?_, ?_, ?_⟩
  · intro j hj
    show (if j = k then _ else _) = _
    rw [if_neg (by omega)]; exact h.other j hj
  · intro j
    rw [p.mem_iff, List.mem_cons]
    show (if j = i then true else s.linked j) = true ↔ _
    by_cases hj : j = i
    · simp [hj]
    · simp [hj, h.linked j]
  · rw [p.length_eq, List.length_cons]
    show s.count + 1 = _
    rw [h.count]; push_cast; rfl

/-- removing and appending again keeps the counter -/
theorem LInv.move {s : LSt} (h : LInv s) {i k : Nat} (hk : k < 3) (hi : i ∈ s.all) :
    LInv (((s.unlink i).clear i).append i k) := by
  obtain ⟨h1, h2, h3⟩ := h.remove hi
  have := h1.append (k := k) hk h2
  refine this.same ⟨rfl, rfl, ?_⟩
  show s.count = s.count - 1 + 1
  omega

theorem LInv.step {s s' : LSt} {o : LOp} (h : LInv s) (he : lstep s o = .ok s') : LInv s' := by
  cases o with
  | add i k =>
    simp only [lstep, addList] at he
    split at he
    · rename_i hk
      split at he
      · rename_i hl
        simp only [Res.ok.injEq] at he; subst he
        refine (h.move hk ((h.linked i).1 hl)).same ⟨rfl, ?_, rfl⟩
        funext j
        simp only [LSt.append, LSt.unlink, LSt.clear, LSt.setConn]
        by_cases hj : j = i <;> simp [hj]
      · rename_i hl
        simp only [Res.ok.injEq] at he; subst he
        exact (h.append hk (fun hm => hl ((h.linked i).2 hm))).same ⟨rfl, rfl, rfl⟩
    · cases he
  | ready i =>
    simp only [lstep, addReady] at he
    split at he
    · cases he
    · rename_i hl
      simp only [Res.ok.injEq] at he; subst he
      exact h.append (by omega) (fun hm => hl ((h.linked i).2 hm))
  | remove i =>
    simp only [lstep, removeList] at he
    split at he
    · rename_i hl
      split at he
      · simp only [Res.ok.injEq] at he; subst he
        exact (h.remove ((h.linked i).1 hl)).1.same ⟨rfl, rfl, rfl⟩
      · cases he
    · simp only [Res.ok.injEq] at he; subst he; exact h
  | check k =>
    simp only [lstep] at he
    split at he
    · rename_i hk
      simp only [checkIter] at he
      split at he
      · cases he
      · rename_i i rest hl
        have hi : i ∈ s.all := (mem_all h (k := k) (by rw [hl]; simp)).1
        split at he
        · cases he
        · split at he
          · simp only [Res.ok.injEq] at he; subst he
            exact (h.move (by omega) hi).same ⟨rfl, rfl, rfl⟩
          · split at he
            · split at he
              · simp only [Res.ok.injEq] at he; subst he
                exact (h.move (by omega) hi).same ⟨rfl, rfl, rfl⟩
              · simp only [Res.ok.injEq] at he; subst he
                exact (h.remove hi).1.same ⟨rfl, rfl, rfl⟩
            · cases he
    · cases he
  | popReady =>
    simp only [lstep, popReady] at he
    split at he
    · cases he
    · rename_i i rest hl
      have hi : i ∈ s.all := (mem_all h (k := 2) (by rw [hl]; simp)).1
      simp only [Res.ok.injEq] at he; subst he
      exact (h.remove hi).1.same ⟨rfl, rfl, rfl⟩
  | clock ms => simp only [lstep, Res.ok.injEq] at he; subst he; exact h.same ⟨rfl, rfl, rfl⟩
  | clockBack ms => simp only [lstep, Res.ok.injEq] at he; subst he; exact h.same ⟨rfl, rfl, rfl⟩
  | config i t r => simp only [lstep, Res.ok.injEq] at he; subst he; exact h.same ⟨rfl, rfl, rfl⟩

theorem LInv.init (t : Nat → Int) (c : Nat → Conn) : LInv (linit t c) :=
  ⟨List.nodup_nil, fun _ _ => rfl, fun i => ⟨fun h => (by cases h), fun h => (by cases h)⟩, rfl⟩

theorem linv_of_reachable {t : Nat → Int} {c : Nat → Conn} {s : LSt} (h : Reachable lstep (linit t c) s) : LInv s :=
  h.invariant (LInv.init t c) (fun _ _ _ h he => h.step he)

/-- **C25**: each connection is in at most one list, at most once; a connection is marked as queued exactly if it is in a
list; the selector's counter is the number of listed connections. -/
theorem sel_lists_consistent (t : Nat → Int) (c : Nat → Conn) (s : LSt) (h : Reachable lstep (linit t c) s) :
    (∀ k, (s.lists k).Nodup) ∧ (∀ i k k', i ∈ s.lists k → i ∈ s.lists k' → k = k') ∧
    (∀ i, s.linked i = true ↔ ∃ k, k < 3 ∧ i ∈ s.lists k) ∧
    s.count = (s.lists 0).length + (s.lists 1).length + (s.lists 2).length := by
  have inv := linv_of_reachable h
  have hn := inv.nodup
  have e : ∀ i, i ∈ s.all ↔ ∃ k, k < 3 ∧ i ∈ s.lists k := by
    intro i
    constructor
    · intro hi
      simp only [LSt.all, List.mem_append] at hi
      rcases hi with (hi | hi) | hi
      · exact ⟨0, by omega, hi⟩
      · exact ⟨1, by omega, hi⟩
      · exact ⟨2, by omega, hi⟩
    · rintro ⟨k, _, hi⟩; exact (mem_all inv hi).1
  unfold LSt.all at hn
  rw [List.nodup_append, List.nodup_append] at hn
  obtain ⟨⟨n0, n1, d01⟩, n2, d2⟩ := hn
  refine ⟨?_, ?_, fun i => (inv.linked i).trans (e i), ?_⟩
  · intro k
    by_cases hk : k < 3
    · have : k = 0 ∨ k = 1 ∨ k = 2 := by omega
      rcases this with rfl | rfl | rfl <;> assumption
    · rw [inv.other k (by omega)]; exact List.nodup_nil
  · intro i k k' hi hi'
    have hk := (mem_all inv hi).2
    have hk' := (mem_all inv hi').2
    have a : k = 0 ∨ k = 1 ∨ k = 2 := by omega
    have b : k' = 0 ∨ k' = 1 ∨ k' = 2 := by omega
    rcases a with rfl | rfl | rfl <;> rcases b with rfl | rfl | rfl <;> first
      | rfl
      | exact absurd rfl (d01 i hi i hi')
      | exact absurd rfl (d01 i hi' i hi)
      | exact absurd rfl (d2 i (by simp [hi]) i hi')
      | exact absurd rfl (d2 i (by simp [hi']) i hi)
  · rw [inv.count]; simp [LSt.all]; push_cast; omega

/-- **C25**: no operation fails an assertion, apart from a caller naming a list that does not exist or making a fiber
ready that is already queued. -/
theorem sel_lists_no_failure (t : Nat → Int) (c : Nat → Conn) (s : LSt) (h : Reachable lstep (linit t c) s) (o : LOp)
    (hu : lstep s o = .ub) : (∃ i k, o = .add i k ∧ 3 ≤ k) ∨ (∃ i, o = .ready i ∧ s.linked i = true) := by
  have inv := linv_of_reachable h
  cases o with
  | add i k =>
    simp only [lstep, addList] at hu
    split at hu
    · split at hu <;> cases hu
    · exact .inl ⟨i, k, rfl, by omega⟩
  | ready i =>
    simp only [lstep, addReady] at hu
    split at hu
    · rename_i hl; exact .inr ⟨i, rfl, hl⟩
    · cases hu
  | remove i =>
    simp only [lstep, removeList] at hu
    split at hu
    · rename_i hl
      have := (inv.remove ((inv.linked i).1 hl)).2.2
      rw [if_pos (by exact this)] at hu
      cases hu
    · cases hu
  | check k =>
    simp only [lstep] at hu
    split at hu
    · simp only [checkIter] at hu
      split at hu
      · cases hu
      · rename_i i rest hl
        have hi : i ∈ s.all := (mem_all inv (k := k) (by rw [hl]; simp)).1
        have := (inv.remove hi).2.2
        split at hu
        · cases hu
        · split at hu
          · cases hu
          · rw [if_pos (by exact this)] at hu
            split at hu <;> cases hu
    · cases hu
  | popReady => simp only [lstep, popReady] at hu; split at hu <;> cases hu
  | clock ms => simp only [lstep] at hu; cases hu
  | clockBack ms => simp only [lstep] at hu; cases hu
  | config i t r => simp only [lstep] at hu; cases hu

/-! ## order of the timeout lists -/

/-- The clock is never read lower than before without an adjustment. -/
def Fwd (s : LSt) : LOp → Prop
  | .clock ms => s.now ≤ ms
  | _ => True

/-- Executions in which every step back of the clock is adjusted. -/
inductive FReach (init : LSt) : LSt → Prop where
  | refl : FReach init init
  | tail {s s' : LSt} (o : LOp) : FReach init s → Fwd s o → lstep s o = .ok s' → FReach init s'

theorem FReach.reach {init s : LSt} (h : FReach init s) : Reachable lstep init s := by
  induction h with
  | refl => exact .refl
  | tail o _ _ he ih => exact .tail o ih he

/-- ordered by last activity, no activity in the future -/
def OrdL (now : Int) (act : Nat → Int) (l : List Nat) : Prop :=
  l.Pairwise (fun i j => act i ≤ act j) ∧ ∀ i ∈ l, act i ≤ now

theorem OrdL.sublist {now : Int} {act : Nat → Int} {l l' : List Nat} (h : OrdL now act l) (hs : l'.Sublist l) :
    OrdL now act l' := ⟨h.1.sublist hs, fun i hi => h.2 i (hs.subset hi)⟩

theorem OrdL.congr {now : Int} {act act' : Nat → Int} {l : List Nat} (h : OrdL now act l) (he : ∀ i ∈ l, act' i = act i) :
    OrdL now act' l := by
  refine ⟨List.Pairwise.imp_of_mem ?_ h.1, fun i hi => by rw [he i hi]; exact h.2 i hi⟩
  intro a b ha hb hab
  rw [he a ha, he b hb]; exact hab

theorem OrdL.push {now : Int} {act act' : Nat → Int} {l : List Nat} {i : Nat} (h : OrdL now act l)
    (he : ∀ j ∈ l, act' j = act j) (hi : act' i = now) : OrdL now act' (l ++ [i]) := by
  have h' := h.congr he
  refine ⟨?_, ?_⟩
  · rw [List.pairwise_append]
    refine ⟨h'.1, List.pairwise_singleton _ _, ?_⟩
    intro a ha b hb
    rw [List.mem_singleton] at hb; subst hb
    rw [hi]; exact h'.2 a ha
  · intro j hj
    rcases List.mem_append.1 hj with hj | hj
    · exact h'.2 j hj
    · rw [List.mem_singleton] at hj; subst hj; omega

def Ord (s : LSt) : Prop := ∀ k, k < 2 → OrdL s.now (fun i => (s.conn i).active) (s.lists k)

theorem mem_erase_nodup {l : List Nat} {i j : Nat} (hn : l.Nodup) (h : j ∈ l.erase i) : j ≠ i :=
  ((List.Nodup.mem_erase_iff hn).1 h).1

theorem nodup_list {s : LSt} (h : LInv s) (k : Nat) : (s.lists k).Nodup := by
  have hn := h.nodup
  unfold LSt.all at hn
  rw [List.nodup_append, List.nodup_append] at hn
  by_cases hk : k < 3
  · have : k = 0 ∨ k = 1 ∨ k = 2 := by omega
    rcases this with rfl | rfl | rfl
    · exact hn.1.1
    · exact hn.1.2.1
    · exact hn.2.1
  · rw [h.other k (by omega)]; exact List.nodup_nil

/-- moving `i` to the end of list `k` with activity `now` -/
theorem Ord.move {s : LSt} (h : Ord s) (inv : LInv s) (i k : Nat) (c : Conn) (hc : c.active = s.now ∨ 2 ≤ k)
    (lists' : Nat → List Nat) (conn' : Nat → Conn)
    (hl : lists' = fun j => if j = k then (s.lists j).erase i ++ [i] else (s.lists j).erase i)
    (hcn : conn' = fun j => if j = i then c else s.conn j) :
    ∀ j, j < 2 → OrdL s.now (fun i => (conn' i).active) (lists' j) := by
  intro j hj
  have hn := nodup_list inv j
  have base := (h j hj).sublist (List.erase_sublist (a := i))
  have same : ∀ a ∈ (s.lists j).erase i, (conn' a).active = (s.conn a).active := by
    intro a ha
    rw [hcn]
    dsimp only
    rw [if_neg (mem_erase_nodup hn ha)]
  rw [hl]
  dsimp only
  split
  · rename_i hjk
    refine base.push same ?_
    rw [hcn]; simp only [if_true]
    rcases hc with hc | hc
    · exact hc
    · omega
  · exact base.congr same

theorem Ord.step {s s' : LSt} {o : LOp} (h : Ord s) (inv : LInv s) (hf : Fwd s o) (he : lstep s o = .ok s') : Ord s' := by
  have erase_id : ∀ {i}, i ∉ s.all → ∀ k, (s.lists k).erase i = s.lists k := fun hi k =>
    List.erase_of_not_mem (fun hm => hi (mem_all inv hm).1)
  cases o with
  | add i k =>
    simp only [lstep, addList] at he
    split at he
    · rename_i hk
      split at he
      · simp only [Res.ok.injEq] at he; subst he
        refine h.move inv i k _ ?_ _ _ (by rfl) (by rfl)
        by_cases h2 : k = 2
        · right; omega
        · left; simp [h2]
      · rename_i hl
        have hi : i ∉ s.all := fun hm => hl ((inv.linked i).2 hm)
        simp only [Res.ok.injEq] at he; subst he
        refine h.move inv i k _ ?_ _ _ ?_ (by rfl)
        · by_cases h2 : k = 2
          · right; omega
          · left; simp [h2]
        · funext j
          simp only [LSt.append, LSt.setConn]
          split
          · rw [erase_id hi]
          · rw [erase_id hi]
    · cases he
  | ready i =>
    simp only [lstep, addReady] at he
    split at he
    · cases he
    · simp only [Res.ok.injEq] at he; subst he
      intro j hj
      show OrdL _ _ (if j = 2 then _ else _)
      rw [if_neg (by omega)]; exact h j hj
  | remove i =>
    simp only [lstep, removeList] at he
    split at he
    · split at he
      · simp only [Res.ok.injEq] at he; subst he
        intro j hj
        exact (h j hj).sublist List.erase_sublist
      · cases he
    · simp only [Res.ok.injEq] at he; subst he; exact h
  | check k =>
    simp only [lstep] at he
    split at he
    · simp only [checkIter] at he
      split at he
      · cases he
      · rename_i i rest hl
        split at he
        · cases he
        · split at he
          · simp only [Res.ok.injEq] at he; subst he
            exact h.move inv i k _ (.inl rfl) _ _ (by rfl) (by rfl)
          · split at he
            · split at he
              · simp only [Res.ok.injEq] at he; subst he
                exact h.move inv i k _ (.inl rfl) _ _ (by rfl) (by rfl)
              · simp only [Res.ok.injEq] at he; subst he
                intro j hj
                exact (h j hj).sublist List.erase_sublist
            · cases he
    · cases he
  | popReady =>
    simp only [lstep, popReady] at he
    split at he
    · cases he
    · simp only [Res.ok.injEq] at he; subst he
      intro j hj
      exact (h j hj).sublist List.erase_sublist
  | clock ms =>
    simp only [lstep, Res.ok.injEq] at he; subst he
    intro j hj
    exact ⟨(h j hj).1, fun i hi => Int.le_trans ((h j hj).2 i hi) hf⟩
  | clockBack ms =>
    simp only [lstep, Res.ok.injEq] at he; subst he
    intro j hj
    have hm : ∀ i ∈ s.lists j, i ∈ s.lists 0 ∨ i ∈ s.lists 1 := by
      intro i hi
      have : j = 0 ∨ j = 1 := by omega
      rcases this with rfl | rfl
      · exact .inl hi
      · exact .inr hi
    have ea : ∀ i ∈ s.lists j, ((adjustLists s (ms - s.now)).conn i).active = (s.conn i).active + (ms - s.now) := by
      intro i hi
      show (if i ∈ s.lists 0 ∨ i ∈ s.lists 1 then _ else _ : Conn).active = _
      rw [if_pos (hm i hi)]
    have hj' := h j hj
    refine ⟨List.Pairwise.imp_of_mem ?_ hj'.1, ?_⟩
    · intro a b ha hb hab
      show ((adjustLists s (ms - s.now)).conn a).active ≤ ((adjustLists s (ms - s.now)).conn b).active
      dsimp only at hab
      rw [ea a ha, ea b hb]; omega
    · intro i hi
      show ((adjustLists s (ms - s.now)).conn i).active ≤ ms
      have := hj'.2 i hi
      dsimp only at this
      rw [ea i hi]; omega
  | config i t r =>
    simp only [lstep, Res.ok.injEq] at he; subst he
    intro j hj
    refine (h j hj).congr (fun a ha => ?_)
    show (if a = i then _ else _ : Conn).active = _
    split
    · rename_i e; subst e; rfl
    · rfl

theorem ord_of_freach {t : Nat → Int} {c : Nat → Conn} {s : LSt} (h : FReach (linit t c) s) : Ord s := by
  induction h with
  | refl => intro k _; exact ⟨List.Pairwise.nil, fun _ hi => (by cases hi)⟩
  | tail o hr hf he ih => exact ih.step (linv_of_reachable hr.reach) hf he

/-- **C25**: as long as steps back of the clock are adjusted, each timeout list is ordered by last activity and no activity lies
in the future: the loop may stop at the first connection that is not due. -/
theorem sel_lists_ordered (t : Nat → Int) (c : Nat → Conn) (s : LSt) (h : FReach (linit t c) s) (k : Nat) (hk : k < 2) :
    (s.lists k).Pairwise (fun i j => (s.conn i).active ≤ (s.conn j).active) ∧
      ∀ i ∈ s.lists k, (s.conn i).active ≤ s.now := ord_of_freach h k hk

/-! ## a whole check of one list -/

/-- the idle time has reached the list's timeout -/
def LSt.due (s : LSt) (k i : Nat) : Bool := decide (s.timeout k ≤ s.now - (s.conn i).active)

/-- a due connection stays listed: it has a grace period left or wants read timeouts reported -/
def LSt.stays (s : LSt) (i : Nat) : Bool := decide (0 < (s.conn i).tmoLeft) || (s.conn i).rtmo

/-- what the check reports for a due connection -/
def LSt.report (s : LSt) (i : Nat) : Option TEv :=
  if 0 < (s.conn i).tmoLeft then none else if (s.conn i).rtmo then some (.rtime i s.now) else some (.shut i s.now)

/-- the record of a connection after the check found it due -/
def LSt.renew (s : LSt) (i : Nat) : Conn :=
  if 0 < (s.conn i).tmoLeft then { s.conn i with tmoLeft := (s.conn i).tmoLeft - 1, active := s.now }
  else if (s.conn i).rtmo then { s.conn i with active := s.now } else s.conn i

theorem check_one {s : LSt} (inv : LInv s) {k i : Nat} {rest : List Nat} (hk : k < 2) (hl : s.lists k = i :: rest)
    (hd : s.due k i = true) :
    ∃ s', checkIter s k = .ok s' ∧ LInv s' ∧ s'.lists k = rest ++ (if s.stays i then [i] else []) ∧
      (∀ j, j ≠ k → s'.lists j = s.lists j) ∧ s'.log = s.log ++ (s.report i).toList ∧
      s'.conn = (fun j => if j = i then s.renew i else s.conn j) ∧ s'.now = s.now ∧ s'.timeout = s.timeout := by
  have hi : i ∈ s.lists k := by rw [hl]; simp
  have hia := (mem_all inv hi).1
  have hd' : ¬ s.now - (s.conn i).active < s.timeout k := by simp only [LSt.due, decide_eq_true_eq] at hd; omega
  have hcnt := (inv.remove hia).2.2
  have hoth : ∀ j, j ≠ k → (s.lists j).erase i = s.lists j := by
    intro j hj
    refine List.erase_of_not_mem (fun hm => ?_)
    have hn := inv.nodup
    unfold LSt.all at hn
    rw [List.nodup_append, List.nodup_append] at hn
    obtain ⟨⟨n0, n1, d01⟩, n2, d2⟩ := hn
    have hj3 := (mem_all inv hm).2
    have a : k = 0 ∨ k = 1 := by omega
    have b : j = 0 ∨ j = 1 ∨ j = 2 := by omega
    rcases a with rfl | rfl <;> rcases b with rfl | rfl | rfl <;> first
      | exact hj rfl
      | exact d01 i hi i hm rfl
      | exact d01 i hm i hi rfl
      | exact d2 i (by simp [hi]) i hm rfl
  have hown : (s.lists k).erase i = rest := by rw [hl]; simp
  have heq : ∃ s', checkIter s k = .ok s' ∧ s'.lists k = rest ++ (if s.stays i then [i] else []) ∧
      (∀ j, j ≠ k → s'.lists j = s.lists j) ∧ s'.log = s.log ++ (s.report i).toList ∧
      s'.conn = (fun j => if j = i then s.renew i else s.conn j) ∧ s'.now = s.now ∧ s'.timeout = s.timeout := by
    unfold checkIter
    rw [hl]
    dsimp only
    rw [if_neg hd']
    by_cases ht : 0 < (s.conn i).tmoLeft
    · rw [if_pos ht]
      refine ⟨_, rfl, ?_, ?_, ?_, ?_, rfl, rfl⟩
      · simp [LSt.append, LSt.setConn, LSt.clear, LSt.unlink, LSt.stays, ht, hown]
      · intro j hj; simp [LSt.append, LSt.setConn, LSt.clear, LSt.unlink, hj, hoth j hj]
      · simp [LSt.append, LSt.setConn, LSt.clear, LSt.unlink, LSt.report, ht]
      · funext j; simp [LSt.append, LSt.setConn, LSt.clear, LSt.unlink, LSt.renew, ht]
    · rw [if_neg ht, if_pos (by exact hcnt)]
      by_cases hr : (s.conn i).rtmo = true
      · rw [if_pos hr]
        refine ⟨_, rfl, ?_, ?_, ?_, ?_, rfl, rfl⟩
        · simp [LSt.append, LSt.setConn, LSt.clear, LSt.unlink, LSt.stays, hr, hown]
        · intro j hj; simp [LSt.append, LSt.setConn, LSt.clear, LSt.unlink, hj, hoth j hj]
        · simp [LSt.append, LSt.setConn, LSt.clear, LSt.unlink, LSt.report, ht, hr]
        · funext j; simp [LSt.append, LSt.setConn, LSt.clear, LSt.unlink, LSt.renew, ht, hr]
      · rw [if_neg hr]
        refine ⟨_, rfl, ?_, ?_, ?_, ?_, rfl, rfl⟩
        · simp [LSt.clear, LSt.unlink, LSt.stays, hr, ht, hown]
        · intro j hj; simp [LSt.clear, LSt.unlink, hoth j hj]
        · simp [LSt.clear, LSt.unlink, LSt.report, ht, hr]
        · funext j
          simp only [LSt.clear, LSt.unlink, LSt.renew, ht, hr, if_false]
          split
          · rename_i e; subst e; simp
          · rfl
  obtain ⟨s', e, r⟩ := heq
  exact ⟨s', e, inv.step (o := .check k) (by simp only [lstep, if_pos hk]; exact e), r⟩

theorem check_stop {s : LSt} {k : Nat} (h : ∀ i rest, s.lists k = i :: rest → s.due k i = false) :
    checkIter s k = .disabled := by
  unfold checkIter
  split
  · rfl
  · rename_i i rest hl
    have := h i rest hl
    simp only [LSt.due, decide_eq_false_iff_not] at this
    dsimp only
    rw [if_pos (by omega)]

theorem filterMap_congr' {f g : Nat → Option TEv} {l : List Nat} (h : ∀ a ∈ l, f a = g a) : l.filterMap f = l.filterMap g := by
  induction l with
  | nil => rfl
  | cons a l ih => rw [List.filterMap_cons, List.filterMap_cons, h a (by simp), ih (fun b hb => h b (by simp [hb]))]

theorem check_loop {s : LSt} (inv : LInv s) {k : Nat} (hk : k < 2) (hto : 0 < s.timeout k) (D R : List Nat)
    (hl : s.lists k = D ++ R) (hD : ∀ i ∈ D, s.due k i = true) (hR : ∀ i ∈ R, s.due k i = false) (fuel : Nat)
    (hf : D.length < fuel) :
    ∃ s', checkLoop fuel s k = some s' ∧ s'.lists k = R ++ D.filter s.stays ∧
      (∀ j, j ≠ k → s'.lists j = s.lists j) ∧ s'.log = s.log ++ D.filterMap s.report ∧
      s'.conn = (fun j => if j ∈ D then s.renew j else s.conn j) ∧ s'.now = s.now ∧ s'.timeout = s.timeout := by
  induction fuel generalizing s D R with
  | zero => omega
  | succ fuel ih =>
    unfold checkLoop
    cases D with
    | nil =>
      rw [check_stop]
      · exact ⟨s, rfl, by simpa using hl, fun _ _ => rfl, by simp, by funext j; simp, rfl, rfl⟩
      · intro i rest he
        refine hR i ?_
        rw [List.nil_append] at hl
        rw [← hl, he]; simp
    | cons i D =>
      obtain ⟨s1, e1, inv1, l1, o1, g1, c1, n1, t1⟩ := check_one inv hk hl (hD i (by simp))
      rw [e1]
      dsimp only
      have hnd : (i :: (D ++ R)).Nodup := by have := nodup_list inv k; rw [hl] at this; exact this
      have hiN : i ∉ D ++ R := (List.nodup_cons.1 hnd).1
      have cong : ∀ j ∈ D ++ R, s1.conn j = s.conn j := by
        intro j hj
        rw [c1]; dsimp only
        rw [if_neg (by rintro rfl; exact hiN hj)]
      have due_c : ∀ j ∈ D ++ R, s1.due k j = s.due k j := by
        intro j hj; unfold LSt.due; rw [cong j hj, n1, t1]
      have fresh_not_due : s.stays i = true → s1.due k i = false := by
        intro hs
        unfold LSt.due
        rw [c1, n1, t1]
        simp only [if_true, LSt.renew]
        simp only [LSt.stays, Bool.or_eq_true, decide_eq_true_eq] at hs
        rcases hs with hs | hs
        · rw [if_pos hs]; simp; exact hto
        · by_cases ht : 0 < (s.conn i).tmoLeft
          · rw [if_pos ht]; simp; exact hto
          · rw [if_neg ht, if_pos hs]; simp; exact hto
      obtain ⟨s2, e2, l2, o2, g2, c2, n2, t2⟩ := ih inv1 (by rw [t1]; exact hto) D (R ++ if s.stays i then [i] else [])
        (by rw [l1]; exact List.append_assoc D R _)
        (fun j hj => by rw [due_c j (by simp [hj])]; exact hD j (by simp [hj]))
        (fun j hj => by
          rcases List.mem_append.1 hj with hj | hj
          · rw [due_c j (by simp [hj])]; exact hR j hj
          · split at hj
            · rename_i hs
              rw [List.mem_singleton] at hj; subst hj
              exact fresh_not_due hs
            · cases hj)
        (by simp at hf; omega)
      have stays_c : ∀ j ∈ D, s1.stays j = s.stays j := by
        intro j hj; unfold LSt.stays; rw [cong j (by simp [hj])]
      have rep_c : ∀ j ∈ D, s1.report j = s.report j := by
        intro j hj; unfold LSt.report; rw [cong j (by simp [hj]), n1]
      refine ⟨s2, e2, ?_, ?_, ?_, ?_, by rw [n2, n1], by rw [t2, t1]⟩
      · rw [l2, List.filter_congr stays_c, List.filter_cons]
        split <;> simp
      · intro j hj; rw [o2 j hj, o1 j hj]
      · rw [g2, g1, filterMap_congr' rep_c, List.filterMap_cons]
        cases s.report i <;> simp
      · rw [c2]
        funext j
        by_cases hjD : j ∈ D
        · rw [if_pos hjD, if_pos (by simp [hjD])]
          unfold LSt.renew
          rw [cong j (by simp [hjD]), n1]
        · rw [if_neg hjD, c1]
          dsimp only
          by_cases hji : j = i
          · subst hji; simp
          · rw [if_neg hji, if_neg (by simp [hji, hjD])]

theorem due_split {s : LSt} {k : Nat} {l : List Nat} (h : l.Pairwise (fun i j => (s.conn i).active ≤ (s.conn j).active)) :
    l = l.filter (s.due k) ++ l.filter (fun i => !s.due k i) := by
  induction l with
  | nil => rfl
  | cons i l ih =>
    rw [List.pairwise_cons] at h
    by_cases hd : s.due k i = true
    · rw [List.filter_cons_of_pos hd, List.filter_cons_of_neg (by simp [hd]), List.cons_append, ← ih h.2]
    · have hall : ∀ j ∈ l, s.due k j = false := by
        intro j hj
        have := h.1 j hj
        simp only [LSt.due, decide_eq_true_eq, decide_eq_false_iff_not] at hd ⊢
        omega
      rw [List.filter_cons_of_neg hd, List.filter_cons_of_pos (by simp [hd]),
        List.filter_eq_nil_iff.2 (fun j hj => by simp [hall j hj]),
        List.filter_eq_self.2 (fun j hj => by simp [hall j hj])]
      rfl

/-- **C25**: a check of a timeout list treats exactly the connections whose idle time has reached the timeout, wherever they
are in the list: those with a grace period left lose one period and stay; those that asked for read timeouts are reported
(ST_ERR_TIME_OUT) and stay; all others are shut down and leave the list. Every other connection stays as it was, and the loop ends. -/
theorem timeout_check_exact (t : Nat → Int) (c : Nat → Conn) (s : LSt) (h : FReach (linit t c) s) (k : Nat) (hk : k < 2)
    (hto : 0 < s.timeout k) :
    ∃ s', checkLoop ((s.lists k).length + 1) s k = some s' ∧
      s'.lists k = (s.lists k).filter (fun i => !s.due k i) ++ ((s.lists k).filter (s.due k)).filter s.stays ∧
      (∀ j, j ≠ k → s'.lists j = s.lists j) ∧
      s'.log = s.log ++ ((s.lists k).filter (s.due k)).filterMap s.report ∧
      s'.conn = (fun i => if i ∈ s.lists k ∧ s.due k i = true then s.renew i else s.conn i) ∧ s'.now = s.now := by
  have inv := linv_of_reachable h.reach
  have hs := (ord_of_freach h k hk).1
  have hsp := due_split (s := s) (k := k) hs
  obtain ⟨s', e1, e2, e3, e4, e5, e6, e7⟩ := check_loop inv hk hto ((s.lists k).filter (s.due k))
    ((s.lists k).filter (fun i => !s.due k i)) hsp
    (fun i hi => (List.mem_filter.1 hi).2) (fun i hi => by simpa using (List.mem_filter.1 hi).2)
    ((s.lists k).length + 1) (by have := List.length_filter_le (s.due k) (s.lists k); omega)
  refine ⟨s', e1, e2, e3, e4, ?_, e6⟩
  rw [e5]; funext j; simp only [List.mem_filter]

/-! ## grace periods -/

def Grace (t : Nat → Int) (s : LSt) : Prop :=
  s.timeout = t ∧ ∀ k, k < 2 → ∀ i ∈ s.lists k, (s.conn i).tmoLeft ≤ (s.conn i).grace ∧
    (s.conn i).since + ((s.conn i).grace - (s.conn i).tmoLeft : Nat) * t k ≤ (s.conn i).active

theorem grace_move {t : Nat → Int} {s : LSt} (h : Grace t s) (inv : LInv s) (i k : Nat) (cn : Conn)
    (hc : k < 2 → cn.tmoLeft ≤ cn.grace ∧ cn.since + (cn.grace - cn.tmoLeft : Nat) * t k ≤ cn.active) :
    ∀ j, j < 2 → ∀ a ∈ (if j = k then (s.lists j).erase i ++ [i] else (s.lists j).erase i),
      ((if a = i then cn else s.conn a : Conn)).tmoLeft ≤ ((if a = i then cn else s.conn a : Conn)).grace ∧
      ((if a = i then cn else s.conn a : Conn)).since + (((if a = i then cn else s.conn a : Conn)).grace -
        ((if a = i then cn else s.conn a : Conn)).tmoLeft : Nat) * t j ≤ ((if a = i then cn else s.conn a : Conn)).active := by
  intro j hj a ha
  have hn := nodup_list inv j
  have old : a ∈ (s.lists j).erase i → (if a = i then cn else s.conn a : Conn) = s.conn a ∧ a ∈ s.lists j := fun ha =>
    ⟨if_neg (mem_erase_nodup hn ha), List.mem_of_mem_erase ha⟩
  by_cases hjk : j = k
  · rw [if_pos hjk] at ha
    rcases List.mem_append.1 ha with ha | ha
    · rw [(old ha).1]; exact h.2 j hj a (old ha).2
    · rw [List.mem_singleton] at ha; subst ha
      rw [if_pos rfl]
      subst hjk
      exact hc hj
  · rw [if_neg hjk] at ha; rw [(old ha).1]; exact h.2 j hj a (old ha).2

theorem Grace.step {t : Nat → Int} (ht : ∀ k, 0 ≤ t k) {s s' : LSt} {o : LOp} (h : Grace t s) (inv : LInv s) (he : lstep s o = .ok s') :
    Grace t s' := by
  have erase_id : ∀ {i}, i ∉ s.all → ∀ k, (s.lists k).erase i = s.lists k := fun hi k =>
    List.erase_of_not_mem (fun hm => hi (mem_all inv hm).1)
  have shrink : ∀ {i : Nat}, ∀ j, j < 2 → ∀ a ∈ (s.lists j).erase i, (s.conn a).tmoLeft ≤ (s.conn a).grace ∧
      (s.conn a).since + ((s.conn a).grace - (s.conn a).tmoLeft : Nat) * t j ≤ (s.conn a).active :=
    fun j hj a ha => h.2 j hj a (List.mem_of_mem_erase ha)
  cases o with
  | add i k =>
    simp only [lstep, addList] at he
    split at he
    · have hc : ∀ (cn : Conn), cn = (if k ≠ 2 then { ({ s.conn i with tmoLeft := (s.conn i).tmo } : Conn) with
          active := s.now, since := s.now, grace := (s.conn i).tmo } else { s.conn i with tmoLeft := (s.conn i).tmo }) →
          k < 2 → cn.tmoLeft ≤ cn.grace ∧ cn.since + (cn.grace - cn.tmoLeft : Nat) * t k ≤ cn.active := by
        intro cn e hk
        rw [if_pos (by omega)] at e
        subst e
        simp
      split at he
      · simp only [Res.ok.injEq] at he; subst he
        exact ⟨h.1, grace_move h inv i k _ (hc _ rfl)⟩
      · rename_i hl
        have hi : i ∉ s.all := fun hm => hl ((inv.linked i).2 hm)
        simp only [Res.ok.injEq] at he; subst he
        refine ⟨h.1, ?_⟩
        have := grace_move h inv i k _ (hc _ rfl)
        simp only [erase_id hi] at this
        exact this
    · cases he
  | ready i =>
    simp only [lstep, addReady] at he
    split at he
    · cases he
    · simp only [Res.ok.injEq] at he; subst he
      refine ⟨h.1, fun j hj a ha => ?_⟩
      have : a ∈ (if j = 2 then s.lists j ++ [i] else s.lists j) := ha
      rw [if_neg (by omega)] at this
      exact h.2 j hj a this
  | remove i =>
    simp only [lstep, removeList] at he
    split at he
    · split at he
      · simp only [Res.ok.injEq] at he; subst he
        exact ⟨h.1, shrink⟩
      · cases he
    · simp only [Res.ok.injEq] at he; subst he; exact h
  | check k =>
    simp only [lstep] at he
    split at he
    · rename_i hk
      simp only [checkIter] at he
      split at he
      · cases he
      · rename_i i rest hl
        obtain ⟨g1, g2⟩ := h.2 k hk i (by rw [hl]; simp)
        split at he
        · cases he
        · rename_i hd
          rw [h.1] at hd
          split at he
          · rename_i hl
            simp only [Res.ok.injEq] at he; subst he
            refine ⟨h.1, grace_move h inv i k _ (fun _ => ?_)⟩
            dsimp only
            refine ⟨by omega, ?_⟩
            have e : (s.conn i).grace - ((s.conn i).tmoLeft - 1) = ((s.conn i).grace - (s.conn i).tmoLeft) + 1 := by omega
            rw [e]
            push_cast
            rw [Int.add_mul, Int.one_mul]
            omega
          · split at he
            · split at he
              · simp only [Res.ok.injEq] at he; subst he
                refine ⟨h.1, grace_move h inv i k _ (fun _ => ⟨g1, ?_⟩)⟩
                have := ht k
                dsimp only; omega
              · simp only [Res.ok.injEq] at he; subst he
                exact ⟨h.1, shrink⟩
            · cases he
    · cases he
  | popReady =>
    simp only [lstep, popReady] at he
    split at he
    · cases he
    · simp only [Res.ok.injEq] at he; subst he
      exact ⟨h.1, shrink⟩
  | clock ms => simp only [lstep, Res.ok.injEq] at he; subst he; exact h
  | clockBack ms =>
    simp only [lstep, Res.ok.injEq] at he; subst he
    refine ⟨h.1, fun j hj a ha => ?_⟩
    have hm : a ∈ s.lists 0 ∨ a ∈ s.lists 1 := by
      have ha' : a ∈ s.lists j := ha
      have : j = 0 ∨ j = 1 := by omega
      rcases this with rfl | rfl
      · exact .inl ha'
      · exact .inr ha'
    have hc : (adjustLists s (ms - s.now)).conn a = { s.conn a with active := (s.conn a).active + (ms - s.now), since := (s.conn a).since + (ms - s.now) } := by
      show (if a ∈ s.lists 0 ∨ a ∈ s.lists 1 then _ else _) = _
      rw [if_pos hm]
    dsimp only
    rw [hc]
    obtain ⟨g1, g2⟩ := h.2 j hj a ha
    exact ⟨g1, by dsimp only; omega⟩
  | config i tm r =>
    simp only [lstep, Res.ok.injEq] at he; subst he
    refine ⟨h.1, fun j hj a ha => ?_⟩
    have hh := h.2 j hj a ha
    have hc : ((s.setConn i { s.conn i with tmo := tm, rtmo := r }).conn a) = if a = i then { s.conn i with tmo := tm, rtmo := r } else s.conn a := rfl
    rw [hc]
    split
    · rename_i e; subst e; exact hh
    · exact hh

theorem grace_of_reachable {t : Nat → Int} (ht : ∀ k, 0 ≤ t k) {c : Nat → Conn} {s : LSt}
    (h : Reachable lstep (linit t c) s) : Grace t s := by
  induction h with
  | refl => exact ⟨rfl, fun _ _ _ hi => (by cases hi)⟩
  | tail o hr he ih => exact ih.step ht (linv_of_reachable hr) he

/-- **C25**: a connection put on timeout list `k` at time `since` with `tmo = grace` is shut down by a check only if at least
`grace + 1` full timeouts have passed since, whatever happens in between; and only connections that are due are treated. -/
theorem shutdown_only_after_grace (t : Nat → Int) (ht : ∀ k, 0 ≤ t k) (c : Nat → Conn) (s s' : LSt)
    (h : Reachable lstep (linit t c) s) (k i : Nat) (he : lstep s (.check k) = .ok s')
    (hl : s'.log = s.log ++ [.shut i s.now]) :
    i ∈ s.lists k ∧ (s.conn i).since + ((s.conn i).grace + 1) * t k ≤ s.now := by
  have g := grace_of_reachable ht h
  have lognil : ∀ (x y : List TEv), x = x ++ y → y = [] := fun x y e => by
    have := congrArg List.length e
    rw [List.length_append] at this
    exact List.length_eq_zero_iff.1 (by omega)
  simp only [lstep] at he
  split at he
  · rename_i hk
    simp only [checkIter] at he
    split at he
    · cases he
    · rename_i j rest hj
      obtain ⟨g1, g2⟩ := g.2 k hk j (by rw [hj]; simp)
      split at he
      · cases he
      · rename_i hd
        rw [g.1] at hd
        split at he
        · simp only [Res.ok.injEq] at he; subst he
          have := lognil _ _ hl
          cases this
        · rename_i h0
          split at he
          · split at he
            · simp only [Res.ok.injEq] at he; subst he
              have := List.append_cancel_left hl
              cases this
            · simp only [Res.ok.injEq] at he; subst he
              have := List.append_cancel_left hl
              simp only [List.cons.injEq, TEv.shut.injEq, and_true] at this
              subst this
              refine ⟨by rw [hj]; simp, ?_⟩
              have e : (s.conn j).grace - (s.conn j).tmoLeft = (s.conn j).grace := by omega
              rw [e] at g2
              rw [Int.add_mul, Int.one_mul]
              omega
          · cases he
  · cases he

/-- **C26**, connections: when the clock is adjusted by a jump, the idle time of every listed connection, hence the time it has
left, is unchanged, and so are the lists. -/
theorem clock_jump_keeps_idle (t : Nat → Int) (c : Nat → Conn) (s s' : LSt) (_h : Reachable lstep (linit t c) s) (ms : Int)
    (he : lstep s (.clockBack ms) = .ok s') :
    s'.lists = s.lists ∧ s'.now = ms ∧ ∀ k, k < 2 → ∀ i ∈ s.lists k, s'.now - (s'.conn i).active = s.now - (s.conn i).active := by
  simp only [lstep, Res.ok.injEq] at he; subst he
  refine ⟨rfl, rfl, fun k hk i hi => ?_⟩
  have hm : i ∈ s.lists 0 ∨ i ∈ s.lists 1 := by
    have : k = 0 ∨ k = 1 := by omega
    rcases this with rfl | rfl
    · exact .inl hi
    · exact .inr hi
  show ms - (if i ∈ s.lists 0 ∨ i ∈ s.lists 1 then _ else _ : Conn).active = _
  rw [if_pos hm]
  dsimp only
  omega

/-! ## Non-vacuity and findings -/

/-- connections 1 (no grace), 2 (one grace period), 3 (read timeouts) on the RW list, 4 added later; one is made ready -/
def demoLists : List LOp :=
  [.config 2 1 false, .config 3 0 true, .add 1 1, .add 2 1, .add 3 1, .clock 100, .add 4 1, .add 5 1, .add 5 2,
   .clock 60050, .check 1, .check 1, .check 1, .popReady, .clock 1000, .clockBack 500]

def demoShow (s : LSt) : List (List Nat) × Int × List TEv := ([s.lists 0, s.lists 1, s.lists 2], s.count, s.log)

example : (run lstep (linit (fun _ => 60000) (fun _ => {})) demoLists).map demoShow =
    some ([[], [4, 2, 3], []], 3, [.shut 1 60050, .rtime 3 60050]) := by rfl

example : FReach (linit (fun _ => 60000) (fun _ => {})) { (linit (fun _ => 60000) (fun _ => {})) with now := 7 } :=
  .tail (.clock 7) .refl (by show (0 : Int) ≤ 7; omega) rfl

example : ((run lstep (linit (fun _ => 60000) (fun _ => {}))
    [.config 2 1 false, .config 3 0 true, .add 1 1, .add 2 1, .add 3 1, .clock 100, .add 4 1, .clock 60050]).bind
      (fun s => checkLoop 5 s 1)).map demoShow = some ([[], [4, 2, 3], []], 3, [.shut 1 60050, .rtime 3 60050]) := by rfl

/-- **Finding (C25).** A step back within the same second is not adjusted (src/kselector.c:138-139), so a list can get out of order:
connection 2 has been idle for longer than the timeout but the check stops at connection 1. -/
theorem unadjusted_step_back_hides_due :
    (run lstep (linit (fun _ => 100) (fun _ => {})) [.clock 900, .add 1 1, .clock 100, .add 2 1, .clock 950]).map
      (fun s => (s.lists 1, s.due 1 2, checkIter s 1 matches .disabled)) = some ([1, 2], true, true) := by rfl

theorem stuck_loop (s : LSt) (k i : Nat) (hk : s.lists k = [i]) (ht : s.timeout k = 0) (hr : (s.conn i).rtmo = true)
    (h0 : (s.conn i).tmoLeft = 0) (ha : (s.conn i).active ≤ s.now) (hc : 0 < s.count) (fuel : Nat) :
    checkLoop fuel s k = none := by
  induction fuel generalizing s with
  | zero => rfl
  | succ fuel ih =>
    unfold checkLoop checkIter
    rw [hk]
    dsimp only
    rw [if_neg (by omega), if_neg (by omega), if_pos (by exact hc), if_pos hr]
    refine ih _ ?_ ht ?_ ?_ ?_ hc
    · simp [LSt.append, LSt.setConn, LSt.clear, LSt.unlink, hk]
    · simp [LSt.append, LSt.setConn, LSt.clear, LSt.unlink, hr]
    · simp [LSt.append, LSt.setConn, LSt.clear, LSt.unlink, h0]
    · simp [LSt.append, LSt.setConn, LSt.clear, LSt.unlink]

/-- **Finding (C25).** With a timeout of 0 a connection that asked for read timeouts makes the check loop forever: it is
re-queued at its end with the current time and is due again at once. -/
theorem zero_timeout_loops_forever :
    ∃ s, Reachable lstep (linit (fun _ => 0) (fun _ => {})) s ∧ ∀ fuel, checkLoop fuel s 1 = none :=
  ⟨_, .tail (.add 1 1) (.tail (.config 1 0 true) .refl rfl) rfl, fun fuel => stuck_loop _ 1 1 rfl rfl rfl rfl (by decide) (by decide) fuel⟩

end Kasync.Sel
