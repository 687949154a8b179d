import Verif.KList.Spec

/-! # Property theorems for include/klist.h: C06 -/

namespace Kasync.KList

/-! ## Helper lemmas -/

theorem path_split (m : Mem) (as : List Nat) (p : Nat) (bs : List Nat) :
    Path m (as ++ p :: bs) ↔ Path m (as ++ [p]) ∧ Path m (p :: bs) := by
  induction as with
  | nil => simp [Path]
  | cons a as ih =>
    cases as with
    | nil => simp only [List.cons_append, List.nil_append, Path]; grind
    | cons b as =>
      simp only [List.cons_append, Path] at ih ⊢
      rw [ih]; grind

/-- A path is unchanged by stores to `next` of no inner-or-first cell and to `prev` of no inner-or-last cell. -/
theorem path_congr {m m' : Mem} : ∀ {as : List Nat}, (∀ a ∈ as.dropLast, m'.next a = m.next a) →
    (∀ a ∈ as.tail, m'.prev a = m.prev a) → Path m as → Path m' as
  | [], _, _, _ => trivial
  | [_], _, _, _ => trivial
  | a :: b :: t, h1, h2, h => by
    obtain ⟨x, y, z⟩ := h
    refine ⟨by rw [h1 a (by simp)]; exact x, by rw [h2 b (by simp)]; exact y, ?_⟩
    refine path_congr ?_ ?_ z
    · intro c hc; exact h1 c (by rw [List.dropLast_cons_of_ne_nil (by simp)]; exact List.mem_cons_of_mem _ hc)
    · intro c hc; exact h2 c (by simp only [List.tail_cons] at hc ⊢; exact List.mem_cons_of_mem _ hc)

theorem isList_frame {m m' : Mem} {l : Nat} {xs : List Nat} (hv : ∀ a ∈ l :: xs, m'.valid a = m.valid a)
    (ha : AgreeOn m m' (l :: xs)) (h : IsList m l xs) : IsList m' l xs := by
  obtain ⟨h1, h2, h3⟩ := h
  refine ⟨fun a h => by rw [hv a h]; exact h1 a h, h2, path_congr ?_ ?_ h3⟩
  · intro a h
    rw [List.dropLast_concat] at h
    exact (ha a h).1
  · intro a h
    simp only [List.cons_append, List.tail_cons, List.mem_append, List.mem_singleton] at h
    refine (ha a ?_).2
    rcases h with h | rfl
    · exact List.mem_cons_of_mem _ h
    · exact List.mem_cons_self ..

/-! ## C06 -/

/-- **C06.** `klist_init` on any valid cell makes it the empty list and touches no other cell. -/
theorem klist_init_empty (m : Mem) (l : Nat) (hv : m.valid l = true) :
    ∃ m', init m l = some m' ∧ IsList m' l [] ∧ empty m' l = some true ∧ m'.valid = m.valid ∧
      ∀ a, a ≠ l → m'.next a = m.next a ∧ m'.prev a = m.prev a := by
  refine ⟨⟨m.valid, fun x => if x = l then l else m.next x, fun x => if x = l then l else m.prev x⟩, ?_, ?_, ?_, rfl, ?_⟩
  · simp [init, Mem.setNext, Mem.setPrev, hv]
  · refine ⟨by simp [hv], by simp, by simp [Path]⟩
  · simp [empty, Mem.getNext, hv]
  · intro a ha; simp [ha]

/-- **C06.** `klist_insert` appends a cell that is not in the list at the tail; cells other than the header, the new
cell and the former last cell are untouched. -/
theorem klist_insert_appends (m : Mem) (l x : Nat) (xs : List Nat) (h : IsList m l xs) (hx : m.valid x = true)
    (hn : x ∉ l :: xs) :
    ∃ m', insert m l x = some m' ∧ IsList m' l (xs ++ [x]) ∧ m'.valid = m.valid ∧
      ∀ a, a ≠ l → a ≠ x → a ≠ (l :: xs).getLast (by simp) → m'.next a = m.next a ∧ m'.prev a = m.prev a := by
  obtain ⟨hv, hnd, hp⟩ := h
  -- `l :: xs = ys ++ [p]`
  obtain ⟨ys, p, hys⟩ : ∃ ys p, l :: xs = ys ++ [p] :=
    ⟨(l :: xs).dropLast, (l :: xs).getLast (by simp), (List.dropLast_concat_getLast (by simp)).symm⟩
  have hlast : (l :: xs).getLast (by simp) = p := by simp only [hys, List.getLast_concat]
  rw [hlast]
  have hp' : Path m (ys ++ [p]) ∧ Path m [p, l] := by
    rw [hys] at hp
    have := (path_split m ys p [l]).1 (by simpa using hp)
    exact this
  have hpl : m.next p = l ∧ m.prev l = p := ⟨hp'.2.1, hp'.2.2.1⟩
  have hpv : m.valid p = true := hv p (by rw [hys]; simp)
  have hlv : m.valid l = true := hv l (by simp)
  have hxl : x ≠ l := fun e => hn (by simp [e])
  have hxp : x ≠ p := fun e => hn (by rw [hys]; simp [e])
  refine ⟨⟨m.valid, fun a => if a = x then l else if a = p then x else m.next a,
    fun a => if a = l then x else if a = x then p else m.prev a⟩, ?_, ⟨?_, ?_, ?_⟩, rfl, ?_⟩
  · simp [insert, Mem.getPrev, Mem.setPrev, Mem.setNext, hlv, hx, hpl.2, hpv]
  · intro a ha
    simp only [List.mem_cons, List.mem_append, List.not_mem_nil, or_false] at ha
    rcases ha with rfl | ha | rfl
    · exact hlv
    · exact hv a (by simp [ha])
    · exact hx
  · have : (l :: (xs ++ [x])) = (l :: xs) ++ [x] := rfl
    rw [this, List.nodup_append]
    refine ⟨hnd, by simp, ?_⟩
    intro a ha b hb e
    simp only [List.mem_singleton] at hb
    exact hn (by rw [← hb, ← e]; exact ha)
  · have e1 : l :: (xs ++ [x]) ++ [l] = ys ++ p :: [x, l] := by
      have : l :: (xs ++ [x]) ++ [l] = (l :: xs) ++ [x, l] := by simp
      rw [this, hys]; simp
    rw [e1, path_split]
    refine ⟨path_congr (m := m) ?_ ?_ hp'.1, ?_⟩
    · intro a ha
      rw [List.dropLast_concat] at ha
      have h1 : a ≠ x := fun e => hn (by rw [hys, ← e]; simp [ha])
      have h2 : a ≠ p := by
        rintro rfl
        rw [hys, List.nodup_append] at hnd
        exact hnd.2.2 _ ha _ (by simp) rfl
      simp [h1, h2]
    · intro a ha
      have h0 : (ys ++ [p]).tail = xs := by rw [← hys]; rfl
      rw [h0] at ha
      have h1 : a ≠ l := by rintro rfl; exact (List.nodup_cons.1 hnd).1 ha
      have h2 : a ≠ x := fun e => hn (by rw [← e]; simp [ha])
      simp [h1, h2]
    · simp [Path, hxl, Ne.symm hxp]
  · intro a h1 h2 h3; simp [h1, h2, h3]

/-- **C06.** `klist_remove` deletes exactly the given element wherever it is; the other elements stay in order and all
links agree; cells other than its two neighbours are untouched (the removed cell keeps its own links). -/
theorem klist_remove_deletes (m : Mem) (l x : Nat) (as bs : List Nat) (h : IsList m l (as ++ x :: bs)) :
    ∃ m', remove m x = some m' ∧ IsList m' l (as ++ bs) ∧ m'.valid = m.valid ∧
      (∀ a, a ≠ (l :: as).getLast (by simp) → m'.next a = m.next a) ∧
      (∀ a, a ≠ (bs ++ [l]).head (by simp) → m'.prev a = m.prev a) := by
  obtain ⟨hv, hnd, hp⟩ := h
  obtain ⟨ys, p, hys⟩ : ∃ ys p, l :: as = ys ++ [p] :=
    ⟨(l :: as).dropLast, (l :: as).getLast (by simp), (List.dropLast_concat_getLast (by simp)).symm⟩
  obtain ⟨n, zs, hzs⟩ : ∃ n zs, bs ++ [l] = n :: zs := by
    cases bs with
    | nil => exact ⟨l, [], rfl⟩
    | cons b bs => exact ⟨b, bs ++ [l], rfl⟩
  have hlast : (l :: as).getLast (by simp) = p := by simp only [hys, List.getLast_concat]
  have hhead : (bs ++ [l]).head (by simp) = n := by simp only [hzs, List.head_cons]
  rw [hlast, hhead]
  have e0 : l :: (as ++ x :: bs) ++ [l] = ys ++ p :: x :: n :: zs := by
    have : l :: (as ++ x :: bs) ++ [l] = (l :: as) ++ x :: (bs ++ [l]) := by simp
    rw [this, hys, hzs]; simp
  rw [e0, path_split] at hp
  obtain ⟨hp1, hpx, hxp, hxn, hnx, hp2⟩ := hp
  have hpv : m.valid p = true := hv p (by
    have : p ∈ l :: as := by rw [hys]; simp
    simp only [List.mem_cons, List.mem_append] at this ⊢; grind)
  have hnv : m.valid n = true := hv n (by
    have : n ∈ bs ++ [l] := by rw [hzs]; simp
    simp only [List.mem_cons, List.mem_append, List.not_mem_nil, or_false] at this ⊢; grind)
  have hxv : m.valid x = true := hv x (by simp)
  -- all cells are different
  have hnd' : (ys ++ [p] ++ x :: bs).Nodup := by rw [← hys]; simpa using hnd
  have hpy : p ∉ ys := by
    intro hc
    rw [List.append_assoc, List.nodup_append] at hnd'
    exact hnd'.2.2 _ hc _ (by simp) rfl
  have hxp' : x ≠ p := by
    rintro rfl
    rw [List.nodup_append] at hnd'
    exact hnd'.2.2 _ (by simp) _ (List.mem_cons_self ..) rfl
  refine ⟨⟨m.valid, fun a => if a = p then n else m.next a, fun a => if a = n then p else m.prev a⟩,
    ?_, ⟨?_, ?_, ?_⟩, rfl, ?_, ?_⟩
  · simp [remove, Mem.getPrev, Mem.getNext, Mem.setNext, Mem.setPrev, hxv, hxp, hxn, hpv, hnv, hxp']
  · intro a ha
    refine hv a ?_
    simp only [List.mem_cons, List.mem_append] at ha ⊢; grind
  · refine List.Nodup.sublist ?_ hnd
    refine List.Sublist.cons_cons _ (List.Sublist.append (List.Sublist.refl _) (List.sublist_cons_self _ _))
  · have e1 : l :: (as ++ bs) ++ [l] = ys ++ p :: n :: zs := by
      have : l :: (as ++ bs) ++ [l] = (l :: as) ++ (bs ++ [l]) := by simp
      rw [this, hys, hzs]; simp
    rw [e1, path_split]
    refine ⟨path_congr (m := m) ?_ ?_ hp1, by simp, by simp, path_congr (m := m) ?_ ?_ hp2⟩
    · intro a ha
      rw [List.dropLast_concat] at ha
      have : a ≠ p := fun e => hpy (e ▸ ha)
      simp [this]
    · intro a ha
      have h0 : (ys ++ [p]).tail = as := by rw [← hys]; rfl
      rw [h0] at ha
      have : a ≠ n := by
        rintro rfl
        have hm : a ∈ bs ++ [l] := by rw [hzs]; simp
        simp only [List.nodup_cons, List.nodup_append, List.mem_append, List.mem_cons] at hnd
        simp only [List.mem_append, List.mem_singleton] at hm
        rcases hm with hm | rfl
        · exact hnd.2.2.2 a ha a (.inr hm) rfl
        · exact hnd.1 (.inl ha)
      simp [this]
    · intro a ha
      have : a ≠ p := by
        rintro rfl
        -- `a` is both in `ys ++ [p]` and strictly inside `bs`
        have h0 : (n :: zs).dropLast = bs := by rw [← hzs, List.dropLast_concat]
        rw [h0] at ha
        rw [List.nodup_append] at hnd'
        exact hnd'.2.2 a (by simp) a (List.mem_cons_of_mem _ ha) rfl
      simp [this]
    · intro a ha
      have : a ≠ n := by
        rintro rfl
        simp only [List.tail_cons] at ha
        cases bs with
        | nil => simp at hzs; rw [hzs.2] at ha; cases ha
        | cons b bs =>
          simp only [List.cons_append, List.cons.injEq] at hzs
          rw [← hzs.2, ← hzs.1, List.mem_append, List.mem_singleton] at ha
          simp only [List.nodup_cons, List.nodup_append, List.mem_append, List.mem_cons] at hnd
          rcases ha with ha | rfl
          · exact hnd.2.2.1.2.1 ha
          · exact hnd.1 (.inr (.inr (.inl rfl)))
      simp [this]
  · intro a h; simp [h]
  · intro a h; simp [h]

theorem foreachFrom_path (m : Mem) (l : Nat) : ∀ (xs : List Nat) (a : Nat), (∀ x ∈ xs, x ≠ l ∧ m.valid x = true) →
    Path m (a :: xs ++ [l]) → ∀ fuel, xs.length < fuel → foreachFrom m l fuel (m.next a) = some xs
  | [], a, _, hp, fuel, hf => by
    obtain ⟨h, _⟩ := hp
    cases fuel with
    | zero => omega
    | succ f => simp [foreachFrom, h]
  | x :: xs, a, hx, hp, fuel, hf => by
    obtain ⟨h, _, hp⟩ := hp
    cases fuel with
    | zero => omega
    | succ f =>
      rw [h]
      have hx0 := hx x (by simp)
      simp only [foreachFrom, hx0.1, if_false, Mem.getNext, hx0.2, if_true]
      have := foreachFrom_path m l xs x (fun y hy => hx y (List.mem_cons_of_mem _ hy)) hp f (by simpa using hf)
      simp [this]

/-- **C06.** `klist_foreach` visits exactly the elements in order (the loop ends within `length + 1` rounds). -/
theorem klist_foreach_visits (m : Mem) (l : Nat) (xs : List Nat) (h : IsList m l xs) (fuel : Nat)
    (hf : xs.length < fuel) : foreach m l fuel = some xs := by
  obtain ⟨hv, hnd, hp⟩ := h
  simp only [foreach, Mem.getNext, hv l (by simp), if_true, Option.pure_def, Option.bind_eq_bind, Option.bind_some]
  refine foreachFrom_path m l xs l ?_ hp fuel hf
  intro x hx
  exact ⟨fun e => (List.nodup_cons.1 hnd).1 (e ▸ hx), hv x (List.mem_cons_of_mem _ hx)⟩

/-- exchange of the two link fields -/
def swap (m : Mem) : Mem := ⟨m.valid, m.prev, m.next⟩

theorem path_swap (m : Mem) : ∀ as : List Nat, Path m as → Path (swap m) as.reverse
  | [], _ => trivial
  | [_], _ => trivial
  | a :: b :: t, h => by
    obtain ⟨h1, h2, h3⟩ := h
    have := path_swap m (b :: t) h3
    rw [List.reverse_cons] at this
    have e : (a :: b :: t).reverse = t.reverse ++ b :: [a] := by simp
    rw [e, path_split]
    exact ⟨this, h2, h1, trivial⟩

theorem rforeachFrom_swap (m : Mem) (l : Nat) : ∀ fuel pos, rforeachFrom m l fuel pos = foreachFrom (swap m) l fuel pos
  | 0, _ => rfl
  | fuel + 1, pos => by
    simp only [rforeachFrom, foreachFrom, rforeachFrom_swap m l fuel, Mem.getPrev, Mem.getNext, swap]
    rfl

/-- **C06.** `klist_rforeach` visits exactly the elements in reverse order. -/
theorem klist_rforeach_visits (m : Mem) (l : Nat) (xs : List Nat) (h : IsList m l xs) (fuel : Nat)
    (hf : xs.length < fuel) : rforeach m l fuel = some xs.reverse := by
  obtain ⟨hv, hnd, hp⟩ := h
  have hs : IsList (swap m) l xs.reverse := by
    refine ⟨by simpa [swap] using hv, ?_, ?_⟩
    · have := List.nodup_cons.1 hnd
      rw [List.nodup_cons, List.mem_reverse]
      exact ⟨this.1, (List.reverse_perm xs).nodup_iff.2 this.2⟩
    · have := path_swap m _ hp
      simpa using this
  have := klist_foreach_visits (swap m) l xs.reverse hs fuel (by simpa using hf)
  rw [← this]
  simp only [rforeach, foreach, Mem.getPrev, Mem.getNext, swap]
  congr 1
  funext a
  exact rforeachFrom_swap m l fuel a

/-- **C06.** `klist_empty` is true exactly for the empty list. -/
theorem klist_empty_iff (m : Mem) (l : Nat) (xs : List Nat) (h : IsList m l xs) :
    empty m l = some (decide (xs = [])) := by
  obtain ⟨hv, hnd, hp⟩ := h
  simp only [empty, Mem.getNext, hv l (by simp), if_true, Option.pure_def, Option.bind_eq_bind, Option.bind_some]
  cases xs with
  | nil => simp [hp.1]
  | cons x xs =>
    have : m.next l = x := hp.1
    have hne : x ≠ l := fun e => (List.nodup_cons.1 hnd).1 (by simp [e])
    simp [this, hne]

/-- **C06.** Other lists are untouched: after an insert or remove on one list, every list whose cells are all different
from those of the first (and from the inserted cell) is still the same list. -/
theorem klist_frame (m m' : Mem) (l x : Nat) (xs : List Nat) (l2 : Nat) (ys : List Nat) (h2 : IsList m l2 ys)
    (hd : ∀ a ∈ l2 :: ys, a ∉ l :: xs) :
    (IsList m l xs → m.valid x = true → x ∉ l :: xs → x ∉ l2 :: ys → insert m l x = some m' → IsList m' l2 ys) ∧
    (IsList m l xs → x ∈ xs → remove m x = some m' → IsList m' l2 ys) := by
  constructor
  · intro h1 hx hn hn2 hi
    obtain ⟨m1, e, _, hv, hfr⟩ := klist_insert_appends m l x xs h1 hx hn
    rw [e] at hi; cases hi
    refine isList_frame (fun a _ => by rw [hv]) ?_ h2
    intro a ha
    have hna := hd a ha
    refine hfr a (fun e => hna (by simp [e])) (fun e => hn2 (e ▸ ha)) (fun e => hna ?_)
    rw [e]; exact List.getLast_mem _
  · intro h1 hx hr
    obtain ⟨as, bs, rfl⟩ := List.append_of_mem hx
    obtain ⟨m1, e, _, hv, hf1, hf2⟩ := klist_remove_deletes m l x as bs h1
    rw [e] at hr; cases hr
    refine isList_frame (fun a _ => by rw [hv]) ?_ h2
    intro a ha
    have hna := hd a ha
    refine ⟨hf1 a (fun e => hna ?_), hf2 a (fun e => hna ?_)⟩
    · have := List.getLast_mem (l := l :: as) (by simp)
      rw [← e] at this
      simp only [List.mem_cons, List.mem_append] at this ⊢; grind
    · have := List.head_mem (l := bs ++ [l]) (by simp)
      rw [← e] at this
      simp only [List.mem_cons, List.mem_append, List.not_mem_nil, or_false] at this ⊢; grind

/-- A list operation of a client. -/
inductive LOp where
  | insert (x : Nat)
  | remove (x : Nat)

/-- the operation on the memory -/
def apply (m : Mem) (l : Nat) : LOp → Option Mem
  | .insert x => insert m l x
  | .remove x => remove m x

/-- the operation on a sequence -/
def specApply (xs : List Nat) : LOp → List Nat
  | .insert x => xs ++ [x]
  | .remove x => xs.erase x

/-- the caller inserts valid cells that are not in the list and removes cells that are -/
def Allowed (m : Mem) (l : Nat) (xs : List Nat) : LOp → Prop
  | .insert x => m.valid x = true ∧ x ∉ l :: xs
  | .remove x => x ∈ xs

/-- every operation of the history is allowed when its turn comes -/
def AllAllowed (m : Mem) (l : Nat) : List Nat → List LOp → Prop
  | _, [] => True
  | xs, o :: os => Allowed m l xs o ∧ AllAllowed m l (specApply xs o) os

/-- **C06.** The intrusive list is a sequence: for every history of inserts and removes that follows the calling
discipline no load or store is undefined and the memory holds exactly the sequence the history describes. -/
theorem klist_is_sequence (l : Nat) : ∀ (ops : List LOp) (m : Mem) (xs : List Nat), IsList m l xs →
    AllAllowed m l xs ops →
    ∃ m', ops.foldlM (fun m o => apply m l o) m = some m' ∧ IsList m' l (ops.foldl specApply xs)
  | [], m, xs, h, _ => ⟨m, rfl, h⟩
  | o :: ops, m, xs, h, ha => by
    obtain ⟨h1, h2⟩ := ha
    have aux : ∃ m', apply m l o = some m' ∧ IsList m' l (specApply xs o) ∧ m'.valid = m.valid := by
      cases o with
      | insert x =>
        obtain ⟨m', e, hl, hv, _⟩ := klist_insert_appends m l x xs h h1.1 h1.2
        exact ⟨m', e, hl, hv⟩
      | remove x =>
        have hx : x ∈ xs := h1
        obtain ⟨as, bs, hxs, hnx⟩ := List.append_of_mem hx |> fun ⟨as, bs, e⟩ =>
          (⟨as, bs, e, by
            have := h.2.1
            rw [e] at this
            simp only [List.nodup_cons, List.nodup_append] at this
            intro hc; exact this.2.2.2 x hc x (List.mem_cons_self ..) rfl⟩ : ∃ as bs, xs = as ++ x :: bs ∧ x ∉ as)
        subst hxs
        obtain ⟨m', e, hl, hv, _⟩ := klist_remove_deletes m l x as bs h
        refine ⟨m', e, ?_, hv⟩
        have : (as ++ x :: bs).erase x = as ++ bs := by
          rw [List.erase_append_right _ hnx, List.erase_cons_head]
        simp only [specApply, this]; exact hl
    obtain ⟨m', e, hl, hv⟩ := aux
    have h2' : AllAllowed m' l (specApply xs o) ops := by
      have : ∀ (os : List LOp) (ys : List Nat), AllAllowed m l ys os → AllAllowed m' l ys os := by
        intro os
        induction os with
        | nil => intro ys _; trivial
        | cons o os ih =>
          intro ys ⟨a, b⟩
          refine ⟨?_, ih _ b⟩
          cases o with
          | insert x => exact ⟨by rw [hv]; exact a.1, a.2⟩
          | remove x => exact a
      exact this _ _ h2
    obtain ⟨m'', e2, hl2⟩ := klist_is_sequence l ops m' _ hl h2'
    exact ⟨m'', by simp [List.foldlM, e, e2], hl2⟩

/-! ## The singly linked ring -/

theorem fpath_split (m : Mem) (as : List Nat) (p : Nat) (bs : List Nat) :
    FPath m (as ++ p :: bs) ↔ FPath m (as ++ [p]) ∧ FPath m (p :: bs) := by
  induction as with
  | nil => simp [FPath]
  | cons a as ih =>
    cases as with
    | nil => simp only [List.cons_append, List.nil_append, FPath]; grind
    | cons b as =>
      simp only [List.cons_append, FPath] at ih ⊢
      rw [ih]; grind

theorem fpath_congr {m m' : Mem} : ∀ {as : List Nat}, (∀ a ∈ as.dropLast, m'.next a = m.next a) →
    FPath m as → FPath m' as
  | [], _, _ => trivial
  | [_], _, _ => trivial
  | a :: b :: t, h1, h => by
    obtain ⟨x, z⟩ := h
    refine ⟨by rw [h1 a (by simp)]; exact x, ?_⟩
    refine fpath_congr ?_ z
    intro c hc; exact h1 c (by rw [List.dropLast_cons_of_ne_nil (by simp)]; exact List.mem_cons_of_mem _ hc)

/-- **C06 (forward list).** `kforward_list_init` gives the empty ring; `kforward_list_append` puts the item directly
behind the header, i.e. *first* (despite its name). -/
theorem kforward_list_append_first (m : Mem) (l x : Nat) (xs : List Nat) (h : IsFList m l xs) (hx : m.valid x = true)
    (hn : x ∉ l :: xs) : ∃ m', fAppend m l x = some m' ∧ IsFList m' l (x :: xs) := by
  obtain ⟨hv, hnd, hp⟩ := h
  have hlv : m.valid l = true := hv l (by simp)
  have hxl : x ≠ l := fun e => hn (by simp [e])
  refine ⟨⟨m.valid, fun a => if a = l then x else if a = x then m.next l else m.next a, m.prev⟩, ?_, ?_, ?_, ?_⟩
  · simp [fAppend, Mem.getNext, Mem.setNext, hlv, hx]
  · intro a ha
    simp only [List.mem_cons] at ha
    rcases ha with rfl | rfl | ha
    · exact hlv
    · exact hx
    · exact hv a (by simp [ha])
  · simp only [List.nodup_cons, List.mem_cons] at hnd hn ⊢
    grind
  · have key : ∀ zs : List Nat, FPath m (l :: zs) → zs ≠ [] → (∀ a ∈ zs.dropLast, a ≠ l ∧ a ≠ x) →
        FPath ⟨m.valid, fun a => if a = l then x else if a = x then m.next l else m.next a, m.prev⟩ (l :: x :: zs) := by
      intro zs hz hne hzz
      cases zs with
      | nil => exact absurd rfl hne
      | cons z zs =>
        refine ⟨by simp, by simp [hxl]; exact hz.1, ?_⟩
        refine fpath_congr (m := m) ?_ hz.2
        intro a ha
        have := hzz a ha
        simp [this.1, this.2]
    refine key (xs ++ [l]) (by simpa using hp) (by simp) ?_
    intro a ha
    rw [List.dropLast_concat] at ha
    exact ⟨fun e => (List.nodup_cons.1 hnd).1 (e ▸ ha), fun e => hn (e ▸ List.mem_cons_of_mem _ ha)⟩

/-- **C06 (forward list).** `kforward_list_init` gives the empty ring. -/
theorem kforward_list_init_empty (m : Mem) (l : Nat) (hv : m.valid l = true) :
    ∃ m', fInit m l = some m' ∧ IsFList m' l [] ∧ fEmpty m' l = some true := by
  refine ⟨⟨m.valid, fun x => if x = l then l else m.next x, m.prev⟩, by simp [fInit, Mem.setNext, hv], ?_, ?_⟩
  · exact ⟨by simp [hv], by simp, by simp [FPath]⟩
  · simp [fEmpty, Mem.getNext, hv]

theorem fRemoveFrom_spec (m : Mem) (l x : Nat) : ∀ (xs : List Nat) (p : Nat), (∀ a ∈ p :: xs, m.valid a = true) →
    l ∉ xs → FPath m (p :: xs ++ [l]) → ∀ fuel, xs.length < fuel →
    (x ∉ xs → fRemoveFrom m l x fuel p = some (m, false)) ∧
    (∀ as bs, xs = as ++ x :: bs → x ∉ as →
      fRemoveFrom m l x fuel p = some (⟨m.valid, fun a => if a = (p :: as).getLast (by simp) then (bs ++ [l]).head (by simp) else m.next a,
        m.prev⟩, true))
  | [], p, hv, _, hp, fuel, hf => by
    cases fuel with
    | zero => omega
    | succ f =>
      have hn : m.next p = l := hp.1
      refine ⟨fun _ => ?_, fun as bs h => by simp at h⟩
      simp [fRemoveFrom, Mem.getNext, hv p (by simp), hn]
  | y :: ys, p, hv, hl, hp, fuel, hf => by
    cases fuel with
    | zero => omega
    | succ f =>
      have hn : m.next p = y := hp.1
      have hyl : y ≠ l := fun e => hl (by simp [e])
      have ih := fRemoveFrom_spec m l x ys y (fun a ha => hv a (List.mem_cons_of_mem _ ha))
        (fun h => hl (List.mem_cons_of_mem _ h)) hp.2 f (by simpa using hf)
      constructor
      · intro hx
        have hxy : y ≠ x := fun e => hx (by simp [e])
        simp only [fRemoveFrom, Mem.getNext, hv p (by simp), if_true, hn, hyl, hxy, if_false, Option.bind_eq_bind,
          Option.bind_some]
        exact ih.1 (fun h => hx (List.mem_cons_of_mem _ h))
      · intro as bs e hxa
        cases as with
        | nil =>
          simp only [List.nil_append, List.cons.injEq] at e
          obtain ⟨rfl, rfl⟩ := e
          have hxn : m.next y = (ys ++ [l]).head (by simp) := by
            have := hp.2
            cases ys with
            | nil => exact this.1
            | cons z zs => exact this.1
          simp [fRemoveFrom, Mem.getNext, Mem.setNext, hv p (by simp), hv y (by simp), hn, hyl, hxn]
          rfl
        | cons a as =>
          simp only [List.cons_append, List.cons.injEq] at e
          obtain ⟨rfl, e⟩ := e
          have hxy : y ≠ x := fun e => hxa (by simp [e])
          simp only [fRemoveFrom, Mem.getNext, hv p (by simp), if_true, hn, hyl, hxy, if_false, Option.bind_eq_bind,
            Option.bind_some]
          rw [ih.2 as bs e (fun h => hxa (List.mem_cons_of_mem _ h))]
          simp
          rfl

/-- **C06 (forward list).** `kfoward_list_remove` returns true and deletes exactly the item when it is in the ring,
and otherwise returns false and changes nothing. -/
theorem kforward_list_remove_deletes (m : Mem) (l x : Nat) (xs : List Nat) (h : IsFList m l xs) (fuel : Nat)
    (hf : xs.length < fuel) :
    (x ∉ xs → fRemove m l x fuel = some (m, false)) ∧
    (x ∈ xs → ∃ m', fRemove m l x fuel = some (m', true) ∧ IsFList m' l (xs.erase x)) := by
  obtain ⟨hv, hnd, hp⟩ := h
  have hl := (List.nodup_cons.1 hnd).1
  have hs := fRemoveFrom_spec m l x xs l hv hl hp fuel hf
  refine ⟨hs.1, fun hx => ?_⟩
  obtain ⟨as, bs, rfl⟩ := List.append_of_mem hx
  have hxa : x ∉ as := by
    simp only [List.nodup_cons, List.nodup_append] at hnd
    intro hc; exact hnd.2.2.2 x hc x (List.mem_cons_self ..) rfl
  refine ⟨_, hs.2 as bs rfl hxa, ?_⟩
  have he : (as ++ x :: bs).erase x = as ++ bs := by
    rw [List.erase_append_right _ hxa, List.erase_cons_head]
  rw [he]
  obtain ⟨ys, p, hys⟩ : ∃ ys p, l :: as = ys ++ [p] :=
    ⟨(l :: as).dropLast, (l :: as).getLast (by simp), (List.dropLast_concat_getLast (by simp)).symm⟩
  obtain ⟨n, zs, hzs⟩ : ∃ n zs, bs ++ [l] = n :: zs := by
    cases bs with
    | nil => exact ⟨l, [], rfl⟩
    | cons b bs => exact ⟨b, bs ++ [l], rfl⟩
  have hlast : (l :: as).getLast (by simp) = p := by simp only [hys, List.getLast_concat]
  have hhead : (bs ++ [l]).head (by simp) = n := by simp only [hzs, List.head_cons]
  rw [hlast, hhead]
  have hnd' : (ys ++ [p] ++ x :: bs).Nodup := by rw [← hys]; simpa using hnd
  refine ⟨?_, ?_, ?_⟩
  · intro a ha
    refine hv a ?_
    simp only [List.mem_cons, List.mem_append] at ha ⊢; grind
  · refine List.Nodup.sublist ?_ hnd
    refine List.Sublist.cons_cons _ (List.Sublist.append (List.Sublist.refl _) (List.sublist_cons_self _ _))
  · have e0 : l :: (as ++ x :: bs) ++ [l] = ys ++ p :: x :: n :: zs := by
      have : l :: (as ++ x :: bs) ++ [l] = (l :: as) ++ x :: (bs ++ [l]) := by simp
      rw [this, hys, hzs]; simp
    have e1 : l :: (as ++ bs) ++ [l] = ys ++ p :: n :: zs := by
      have : l :: (as ++ bs) ++ [l] = (l :: as) ++ (bs ++ [l]) := by simp
      rw [this, hys, hzs]; simp
    rw [e0, fpath_split] at hp
    rw [e1, fpath_split]
    refine ⟨fpath_congr (m := m) ?_ hp.1, by simp, fpath_congr (m := m) ?_ hp.2.2.2⟩
    · intro a ha
      rw [List.dropLast_concat] at ha
      have : a ≠ p := by
        rintro rfl
        rw [List.append_assoc, List.nodup_append] at hnd'
        exact hnd'.2.2 _ ha _ (by simp) rfl
      simp [this]
    · intro a ha
      have : a ≠ p := by
        rintro rfl
        have h0 : (n :: zs).dropLast = bs := by rw [← hzs, List.dropLast_concat]
        rw [h0] at ha
        rw [List.nodup_append] at hnd'
        exact hnd'.2.2 a (by simp) a (List.mem_cons_of_mem _ ha) rfl
      simp [this]

/-! ## Non-vacuity and misuse -/

/-- ten valid cells, all links 0 -/
def mem0 : Mem := ⟨fun a => decide (1 ≤ a ∧ a ≤ 10), fun _ => 0, fun _ => 0⟩

/-- A concrete history: init, three inserts, one remove from the middle; then the walk gives the rest in order. -/
example : (do let m ← init mem0 1; let m ← insert m 1 2; let m ← insert m 1 3; let m ← insert m 1 4
              let m ← remove m 3; foreach m 1 10) = some [2, 4] := by decide

example : ∃ m, init mem0 1 = some m ∧ IsList m 1 [] ∧ AllAllowed m 1 [] [.insert 2, .insert 3, .remove 2] := by
  obtain ⟨m, e, h, _, hv, _⟩ := klist_init_empty mem0 1 (by decide)
  refine ⟨m, e, h, ?_⟩
  simp only [AllAllowed, Allowed, specApply, hv]
  decide

/-- **Finding (C06).** Removing an element whose links were never set (both NULL) is undefined behaviour. -/
theorem klist_remove_unlinked_ub : remove mem0 5 = none := by decide

/-- **Finding (C06).** `klist_remove` leaves the links of the removed element in place, so removing it again after one
of its former neighbours was removed brings that neighbour back: the walk visits a removed element. -/
theorem klist_double_remove_corrupts :
    (do let m ← init mem0 1; let m ← insert m 1 2; let m ← insert m 1 3; let m ← insert m 1 4
        let m ← remove m 3; let m ← remove m 4; let m ← remove m 3; foreach m 1 10) = some [2, 4] := by decide

end Kasync.KList
