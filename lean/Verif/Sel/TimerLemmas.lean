import Verif.Sel.TimerSpec

/-! Helper lemmas for the timer tree. -/

namespace Kasync.Sel

open Kasync.RB

/-- the timers of one node with their effective deadline -/
def TNode.view (n : TNode) : List Tm := (n.head :: n.rest).map (fun b => ⟨b.id, n.head.active⟩)

def flat (l : List TNode) : List Tm := l.flatMap TNode.view

theorem flat_append (a b : List TNode) : flat (a ++ b) = flat a ++ flat b := by simp [flat]
theorem flat_cons (a : TNode) (b : List TNode) : flat (a :: b) = a.view ++ flat b := by simp [flat]

theorem mem_view {n : TNode} {t : Tm} (h : t ∈ n.view) : t.due = n.head.active := by
  simp only [TNode.view, List.mem_map] at h
  obtain ⟨b, _, rfl⟩ := h; rfl

theorem mem_flat {l : List TNode} {t : Tm} (h : t ∈ flat l) : ∃ n ∈ l, t.due = n.head.active := by
  simp only [flat, List.mem_flatMap] at h
  obtain ⟨n, hn, ht⟩ := h
  exact ⟨n, hn, mem_view ht⟩

abbrev Asc (l : List TNode) : Prop := l.Pairwise (fun a b => a.head.active < b.head.active)

theorem locAddr_ok (a : Nat) (t : Tree TNode) (p : Path TNode) :
    match locAddr a t p with
    | none => ∀ x ∈ t.inorder, x.addr ≠ a
    | some z => z.root = zip p t ∧ z.x.addr = a := by
  induction t generalizing p with
  | nil => simp [locAddr, Tree.inorder]
  | node c l x r ih1 ih2 =>
    unfold locAddr
    by_cases hx : x.addr = a
    · simp [hx, Loc.root, Loc.tree]
    · simp only [hx, if_false]
      have h1 := ih1 (.left c x r :: p)
      have h2 := ih2 (.right c l x :: p)
      split at h1
      · rename_i e1
        rw [e1]
        dsimp only
        split at h2
        · rename_i e2
          intro y hy
          simp only [Tree.inorder, List.mem_append, List.mem_cons] at hy
          rcases hy with hy | rfl | hy
          · exact h1 y hy
          · exact hx
          · exact h2 y hy
        · rename_i z e2
          exact h2
      · rename_i z e1
        rw [e1]; exact h1

theorem head_loc {t : Tree TNode} {x : TNode} {xs : List TNode} (he : t.inorder = x :: xs)
    (hn : (t.inorder.map TNode.addr).Nodup) :
    ∃ z, locAddr x.addr t [] = some z ∧ z.root = t ∧ z.x = x ∧ z.pre = [] ∧ z.post = xs := by
  have h := locAddr_ok x.addr t []
  split at h
  · exact absurd rfl (h x (by rw [he]; simp))
  · rename_i z e
    refine ⟨z, e, h.1, ?_⟩
    have hr := Loc.inorder_root z
    rw [h.1] at hr
    simp only [zip] at hr
    rw [he] at hr hn
    cases hp : z.pre with
    | nil => rw [hp] at hr; simp only [List.nil_append, List.cons.injEq] at hr; exact ⟨hr.1.symm, rfl, hr.2.symm⟩
    | cons y ys =>
      rw [hp] at hr
      simp only [List.cons_append, List.cons.injEq] at hr
      rw [List.map_cons, List.nodup_cons] at hn
      exact absurd (by rw [hr.2]; exact List.mem_map.2 ⟨z.x, by simp, h.2⟩) hn.1

theorem first_head (t : Tree TNode) : (RB.first t).map (fun z => z.x.addr) = t.inorder.head?.map TNode.addr := by
  have h := first_ok t
  split at h
  · rename_i e; rw [e]; subst h; rfl
  · rename_i z e
    rw [e, ← h.1, Loc.inorder_root, h.2]; rfl

theorem extractLoop_ok (now : Int) (fuel : Nat) (t : Tree TNode) (acc : List TNode) (hv : Valid t)
    (hn : (t.inorder.map TNode.addr).Nodup) (hf : t.inorder.length < fuel) :
    ∃ t', extractLoop now fuel t (t.inorder.head?.map TNode.addr) acc =
        some (t', t'.inorder.head?.map TNode.addr, acc ++ t.inorder.takeWhile (fun n => decide (n.head.active ≤ now))) ∧
      Valid t' ∧ t'.inorder = t.inorder.dropWhile (fun n => decide (n.head.active ≤ now)) := by
  induction fuel generalizing t acc with
  | zero => omega
  | succ fuel ih =>
    cases he : t.inorder with
    | nil => exact ⟨t, by simp [extractLoop, he], hv, by simp [he]⟩
    | cons x xs =>
      obtain ⟨z, h1, h2, h3, h4, h5⟩ := head_loc he hn
      simp only [List.head?_cons, Option.map_some, extractLoop, h1, h3]
      by_cases hd : now < x.head.active
      · rw [if_pos hd]
        have hd' : ¬ x.head.active ≤ now := by omega
        exact ⟨t, by simp [hd', he], hv, by simp [hd', he]⟩
      · rw [if_neg hd]
        obtain ⟨t1, e1, e2, e3⟩ := removeAt_ok z (by rw [h2]; exact hv)
        rw [h4, h5, List.nil_append] at e3
        simp only [e1]
        have hd' : x.head.active ≤ now := by omega
        have hnx : (next z).map (fun z' => z'.x.addr) = t1.inorder.head?.map TNode.addr := by
          have := next_ok z
          split at this
          · rename_i e; rw [e, e3, ← h5, this]; rfl
          · rename_i z' e; rw [e, e3, ← h5, this.2.2]; rfl
        rw [hnx]
        have hn' : (t1.inorder.map TNode.addr).Nodup := by
          rw [e3]; rw [he, List.map_cons, List.nodup_cons] at hn; exact hn.2
        obtain ⟨t2, f1, f2, f3⟩ := ih t1 (acc ++ [x]) e2 hn' (by rw [e3]; rw [he] at hf; simp at hf; omega)
        refine ⟨t2, ?_, f2, ?_⟩
        · rw [f1, e3]; simp [hd']
        · rw [f3, e3]; simp [hd']

/-- the change made by `kselector_adjust_time` to one node -/
def adjNode (d : Int) (n : TNode) : TNode := { n with head := { n.head with active := n.head.active + d } }

theorem setLoc (z : Loc TNode) (x' : TNode) : ({ z with x := x' } : Loc TNode).pre = z.pre ∧
    ({ z with x := x' } : Loc TNode).post = z.post := ⟨rfl, rfl⟩

theorem adjustLoop_ok (d : Int) (fuel : Nat) (z : Loc TNode) (hv : Valid z.root) (hf : z.post.length < fuel) :
    ∃ t, adjustLoop d fuel z = some t ∧ Valid t ∧ t.inorder = z.pre ++ (z.x :: z.post).map (adjNode d) := by
  induction fuel generalizing z with
  | zero => omega
  | succ fuel ih =>
    have hz1 : ∀ x', Valid ({ z with x := x' } : Loc TNode).root := by
      intro x'
      obtain ⟨n, h1, h2, h3, h4⟩ := zip_inv hv
      refine zip_valid h1 ?_ ?_ ?_
      · revert h2; unfold Loc.tree; cases z.c <;> exact id
      · exact h3
      · revert h4; unfold Loc.tree; cases z.c <;> exact id
    have hn := next_ok ({ z with x := adjNode d z.x } : Loc TNode)
    have hr := Loc.inorder_root ({ z with x := adjNode d z.x } : Loc TNode)
    rw [(setLoc z _).1, (setLoc z _).2] at hr
    unfold adjustLoop
    simp only [adjNode] at hn hr ⊢
    split at hn
    · rename_i e
      rw [e]
      refine ⟨_, rfl, hz1 _, ?_⟩
      rw [hr, show z.post = [] from hn]; rfl
    · rename_i z2 e
      rw [e]
      obtain ⟨n1, n2, n3⟩ := hn
      rw [(setLoc z _).1] at n2
      rw [(setLoc z _).2] at n3
      obtain ⟨t, a1, a2, a3⟩ := ih z2 (by rw [n1]; exact hz1 _) (by rw [n3] at hf; simp at hf; omega)
      refine ⟨t, a1, a2, ?_⟩
      rw [a3, n2, n3]
      simp [adjNode]

theorem adjustTree_ok (d : Int) (t : Tree TNode) (hv : Valid t) (hn : (t.inorder.map TNode.addr).Nodup) :
    ∃ t', adjustTree d t (t.inorder.head?.map TNode.addr) = some t' ∧ Valid t' ∧
      t'.inorder = t.inorder.map (adjNode d) := by
  cases he : t.inorder with
  | nil => exact ⟨t, rfl, hv, he⟩
  | cons x xs =>
    obtain ⟨z, h1, h2, h3, h4, h5⟩ := head_loc he hn
    simp only [List.head?_cons, Option.map_some, adjustTree, h1]
    obtain ⟨t', a1, a2, a3⟩ := adjustLoop_ok d (t.size + 1) z (by rw [h2]; exact hv)
      (by rw [h5, size_eq_length, he]; simp; omega)
    exact ⟨t', a1, a2, by rw [a3, h3, h4, h5]; simp⟩

theorem insertQ_ok (b : Brq) (fresh : Nat) (root t : Tree TNode) (p : Path TNode) (f : Bool)
    (hz : root = zip p t) (hv : Valid root) (hs : Asc root.inorder)
    (hb : ∀ y ∈ before p, y.head.active < b.active) (ha : ∀ y ∈ after p, b.active < y.head.active)
    (hf : f = true ↔ before p = []) :
    (∃ t' l1 l2 f', insertQ b fresh t p f = some (t', fresh, f') ∧ Valid t' ∧ (f' = true ↔ l1 = []) ∧
      root.inorder = l1 ++ l2 ∧ t'.inorder = l1 ++ ⟨fresh, b, []⟩ :: l2 ∧
      (∀ y ∈ l1, y.head.active < b.active) ∧ (∀ y ∈ l2, b.active < y.head.active)) ∨
    (∃ t' l1 x l2, insertQ b fresh t p f = some (t', x.addr, false) ∧ Valid t' ∧
      root.inorder = l1 ++ x :: l2 ∧ t'.inorder = l1 ++ ⟨x.addr, b, x.head :: x.rest⟩ :: l2 ∧
      x.head.active = b.active) := by
  induction t generalizing p f with
  | nil =>
    left
    obtain ⟨n, h1, h2, h3, h4⟩ := zip_inv (hz ▸ hv)
    obtain rfl : n = 0 := h2
    obtain ⟨t', e1, e2, e3⟩ := insertColor_ok (.node .red .nil ⟨fresh, b, []⟩ .nil) p 0 h1 (by simp [Tree.BH])
      (by simp [Tree.NoRR]) rfl
    refine ⟨t', before p, after p, f, by simp [insertQ, e1], e2, hf, ?_, ?_, hb, ha⟩
    · rw [hz, inorder_zip]; simp [Tree.inorder]
    · rw [e3, inorder_zip]; simp [Tree.inorder]
  | node c l x r h1 h2 =>
    have hs' : Asc (before p ++ (Tree.node c l x r).inorder ++ after p) := by
      rw [hz, inorder_zip] at hs; exact hs
    have hst : Asc (l.inorder ++ x :: r.inorder) := by
      rw [Asc, List.pairwise_append, List.pairwise_append] at hs'
      exact hs'.1.2.1
    rw [Asc, List.pairwise_append, List.pairwise_cons] at hst
    obtain ⟨s1, ⟨s4, s2⟩, s3⟩ := hst
    unfold insertQ
    split
    · rename_i hlt
      refine h1 (p := .left c x r :: p) f hz (by simpa [before] using hb) ?_ (by simpa [before] using hf)
      simp only [after, List.cons_append, List.mem_cons, List.mem_append]
      rintro y (rfl | hy | hy)
      · omega
      · have := s4 y hy; omega
      · exact ha y hy
    · split
      · rename_i hge hgt
        refine h2 (p := .right c l x :: p) false hz ?_ (by simpa [after] using ha) (by simp [before])
        simp only [before, List.mem_append, List.mem_singleton]
        rintro y ((hy | hy) | rfl)
        · exact hb y hy
        · have := s3 y hy x (by simp); omega
        · omega
      · right
        refine ⟨_, before p ++ l.inorder, x, r.inorder ++ after p, rfl, ?_, ?_, ?_, by omega⟩
        · obtain ⟨n, g1, g2, g3, g4⟩ := zip_inv (hz ▸ hv)
          refine zip_valid g1 ?_ ?_ ?_
          · revert g2; cases c <;> exact id
          · exact g3
          · revert g4; cases c <;> exact id
        · rw [hz, inorder_zip]; simp [Tree.inorder]
        · rw [inorder_zip]; simp [Tree.inorder]

/-! sorting lemmas -/

theorem orderedInsert_skip (x : Tm) (l1 l2 : List Tm) (h : ∀ y ∈ l1, y.due < x.due) :
    (l1 ++ l2).orderedInsert Tm.le x = l1 ++ l2.orderedInsert Tm.le x := by
  induction l1 with
  | nil => rfl
  | cons y l1 ih =>
    have hy := h y (by simp)
    rw [List.cons_append, List.orderedInsert_cons, if_neg (by simp only [Tm.le]; omega),
      ih (fun z hz => h z (by simp [hz]))]
    rfl

theorem orderedInsert_front (x : Tm) (l : List Tm) (h : ∀ y ∈ l, x.due ≤ y.due) :
    l.orderedInsert Tm.le x = x :: l := by
  cases l with
  | nil => rfl
  | cons y l => rw [List.orderedInsert_cons, if_pos (h y (by simp))]

instance : Std.Total Tm.le := ⟨fun a b => by simp only [Tm.le]; omega⟩
instance : IsTrans Tm Tm.le := ⟨fun a b c h1 h2 => by simp only [Tm.le] at *; omega⟩

theorem sort_sorted (l : List Tm) : (l.insertionSort Tm.le).Pairwise Tm.le := List.pairwise_insertionSort Tm.le l

theorem orderedInsert_filter_pos (p : Tm → Bool) (x : Tm) (l : List Tm) (hl : l.Pairwise Tm.le) (hx : p x = true) :
    (l.orderedInsert Tm.le x).filter p = (l.filter p).orderedInsert Tm.le x := by
  induction l with
  | nil => simp [hx]
  | cons y l ih =>
    rw [List.pairwise_cons] at hl
    rw [List.orderedInsert_cons]
    split
    · rename_i hle
      rw [orderedInsert_front x (List.filter p (y :: l))]
      · rw [List.filter_cons_of_pos hx]
      · intro z hz
        have hz' := (List.mem_filter.1 hz).1
        rcases List.mem_cons.1 hz' with rfl | hz'
        · exact hle
        · have := hl.1 z hz'; simp only [Tm.le] at *; omega
    · rename_i hle
      by_cases hy : p y = true
      · rw [List.filter_cons_of_pos hy, List.filter_cons_of_pos hy, ih hl.2, List.orderedInsert_cons, if_neg hle]
      · rw [List.filter_cons_of_neg hy, List.filter_cons_of_neg hy, ih hl.2]

theorem orderedInsert_filter_neg (p : Tm → Bool) (x : Tm) (l : List Tm) (hx : ¬ p x = true) :
    (l.orderedInsert Tm.le x).filter p = l.filter p := by
  induction l with
  | nil => simp [hx]
  | cons y l ih =>
    rw [List.orderedInsert_cons]
    split
    · rw [List.filter_cons_of_neg hx]
    · rw [List.filter_cons, List.filter_cons, ih]

theorem sort_filter (p : Tm → Bool) (l : List Tm) :
    (l.filter p).insertionSort Tm.le = (l.insertionSort Tm.le).filter p := by
  induction l with
  | nil => rfl
  | cons x l ih =>
    rw [List.insertionSort_cons]
    by_cases hx : p x = true
    · rw [List.filter_cons_of_pos hx, List.insertionSort_cons, ih,
        orderedInsert_filter_pos p x _ (sort_sorted l) hx]
    · rw [List.filter_cons_of_neg hx, ih, orderedInsert_filter_neg p x _ hx]

theorem sort_shift (d : Int) (l : List Tm) : (shift d l).insertionSort Tm.le = shift d (l.insertionSort Tm.le) := by
  unfold shift
  rw [List.map_insertionSort Tm.le Tm.le]
  intro a _ b _
  simp only [Tm.le]; omega

theorem flat_adj (d : Int) (l : List TNode) : flat (l.map (adjNode d)) = shift d (flat l) := by
  simp only [flat, shift, List.flatMap_map, List.map_flatMap]
  congr 1
  funext n
  simp [TNode.view, adjNode]

theorem flat_take (now : Int) (l : List TNode) (h : Asc l) :
    flat (l.takeWhile (fun n => decide (n.head.active ≤ now))) = (flat l).filter (fun t => decide (t.due ≤ now)) ∧
    flat (l.dropWhile (fun n => decide (n.head.active ≤ now))) = (flat l).filter (fun t => decide (now < t.due)) := by
  induction l with
  | nil => exact ⟨rfl, rfl⟩
  | cons n l ih =>
    rw [Asc, List.pairwise_cons] at h
    by_cases hn : n.head.active ≤ now
    · have hn' : ¬ now < n.head.active := by omega
      simp only [List.takeWhile_cons, List.dropWhile_cons, hn, decide_true, if_true, flat_cons, List.filter_append, ih h.2]
      refine ⟨?_, ?_⟩
      · rw [show n.view.filter (fun t => decide (t.due ≤ now)) = n.view from List.filter_eq_self.2 (fun t ht => by simp [mem_view ht, hn])]
      · rw [show n.view.filter (fun t => decide (now < t.due)) = [] from List.filter_eq_nil_iff.2 (fun t ht => by simp [mem_view ht, hn])]; rfl
    · have hall : ∀ t ∈ flat (n :: l), now < t.due := by
        intro t ht
        obtain ⟨m, hm, e⟩ := mem_flat ht
        rcases List.mem_cons.1 hm with rfl | hm
        · omega
        · have := h.1 m hm; omega
      simp only [List.takeWhile_cons, List.dropWhile_cons, hn, decide_false]
      refine ⟨?_, ?_⟩
      · rw [List.filter_eq_nil_iff.2 (fun t ht => by have := hall t ht; simp; omega)]; rfl
      · rw [List.filter_eq_self.2 (fun t ht => by have := hall t ht; simpa using this)]; rfl

end Kasync.Sel
