import Verif.RB.HeapMap
import Verif.RB.Props

/-!
# The red-black tree in memory (C46)

The pointer-level code (`Verif.RB.Heap`) in every history of a client: it never follows a NULL or dangling pointer and every loop ends, its answers are those of a finite map, the links, parent words
and colours in memory stay consistent, memory that does not belong to the tree is not touched, and every node taken out has been given back to the allocator.
-/

namespace Kasync.RBHeap
open Kasync.RB (Color Tree Frame Path zip Loc Valid Sorted IsOrder Op Out Spec Verdict specIter)

variable {δ κ : Type} {h : Heap δ}

/-! ## Specification -/

/-- Operations of a client.  `insert a junk d`: `rbtree_insert` with the key of `d`; `malloc` would return `a`, where `junk` lies; a new node gets the data `d`. -/
inductive HOp (κ δ : Type) where
  | insert (a : Ptr) (junk : Node δ) (d : δ)
  | remove (k : κ)
  | find (k : κ)

/-- the same operation on a finite map from keys to pairs of node address and data -/
def HOp.op : HOp κ δ → Op κ (Ptr × δ)
  | .insert a _ d => .insert (a, d)
  | .remove k => .remove k
  | .find k => .find k

/-- `malloc` returns memory that is not in use, not NULL and aligned -/
def HOp.allocOK (h : Heap δ) : HOp κ δ → Prop
  | .insert a _ _ => Fresh h a
  | _ => True

/-- One operation on memory; `none` is undefined behaviour or a loop without end.  The client looks at the node it gets. -/
def stepHeap (cmp : κ → κ → Int) (key : δ → κ) (h : Heap δ) : HOp κ δ → Option (Heap δ × Out (Ptr × δ))
  | .insert a junk d => do
    let r ← insert (fun k x => cmp k (key x)) (key d) a junk h
    let h2 ← if r.2.2 then storeData r.1 r.2.1 d else some r.1
    let n ← h2.load r.2.1
    some (h2, .inserted (r.2.1, n.data) r.2.2)
  | .remove k => do
    let q ← find (fun k x => cmp k (key x)) k h
    if q = 0 then some (h, .removed false)
    else do
      let h' ← remove h q
      some (h', .removed true)
  | .find k => do
    let q ← find (fun k x => cmp k (key x)) k h
    if q = 0 then some (h, .found none)
    else do
      let n ← h.load q
      some (h, .found (some (q, n.data)))

/-- a history -/
def runHeap (cmp : κ → κ → Int) (key : δ → κ) (h : Heap δ) : List (HOp κ δ) → Option (Heap δ × List (Out (Ptr × δ)))
  | [] => some (h, [])
  | o :: os => do
    let r ← stepHeap cmp key h o
    let r' ← runHeap cmp key r.1 os
    some (r'.1, r.2 :: r'.2)

/-- the allocator keeps its contract throughout the history -/
def AllocOK (cmp : κ → κ → Int) (key : δ → κ) (h : Heap δ) : List (HOp κ δ) → Prop
  | [] => True
  | o :: os => o.allocOK h ∧ ∀ r, stepHeap cmp key h o = some r → AllocOK cmp key r.1 os

/-! ## Histories -/

theorem loc_mem {z : Loc (Ptr × δ)} {t : Tree (Ptr × δ)} (hz : z.root = t) : z.x ∈ t.inorder := by
  rw [← hz, Loc.inorder_root]; simp

theorem is_loc_ne {z : Loc (Ptr × δ)} (hi : Is h z.root) : z.x.1 ≠ 0 := (Is.z (p := z.path) (t := z.tree) (h := h) (by exact hi)).2.1.1.1

/-- the state between two operations; `M` is the memory around the tree -/
structure HInv (cmp : κ → κ → Int) (key : δ → κ) (M : Ptr → Option (Node δ)) (h : Heap δ) (t : Tree (Ptr × δ)) (m : Spec κ (Ptr × δ)) : Prop where
  is : Is h t
  ref : RB.Refines cmp (fun x : Ptr × δ => key x.2) t m
  out : ∀ b, b ∉ addrs t → h.mem b = M b
  inn : ∀ b, b ∈ addrs t → M b = none

theorem HInv.step [DecidableEq κ] {cmp : κ → κ → Int} {key : δ → κ} (hc : IsOrder cmp) {M : Ptr → Option (Node δ)} {t : Tree (Ptr × δ)} {m : Spec κ (Ptr × δ)}
    (hv : HInv cmp key M h t m) (o : HOp κ δ) (ha : o.allocOK h) :
    ∃ h' t', stepHeap cmp key h o = some (h', (Spec.step (fun x : Ptr × δ => key x.2) m o.op).2) ∧
      HInv cmp key M h' t' (Spec.step (fun x : Ptr × δ => key x.2) m o.op).1 := by
  obtain ⟨t', hs, hr⟩ := hv.ref.step hc o.op
  cases o with
  | insert a junk d =>
    have hf : Fresh h a := ha
    have hna : a ∉ addrs t := rep_not_fresh hv.is.2.1 hf.2.2
    have hMa : M a = none := by rw [← hv.out a hna]; exact hf.2.2
    simp only [HOp.op] at hs hr ⊢
    generalize Spec.step (fun x : Ptr × δ => key x.2) m (.insert (a, d)) = sp at hs hr ⊢
    simp only [RB.stepTree] at hs
    split at hs
    · cases hs
    · rename_i res hres
      simp only [Option.some.injEq, Prod.mk.injEq] at hs
      obtain ⟨hs1, hs2⟩ := hs
      rcases insert_refines (fun k x => cmp k (key x)) (key d) junk d hv.is hf hres with ⟨g1, g2, g3⟩ | ⟨g1, g2, h1, h2, g3, g4, g5⟩
      · have hmem : res.node ∈ t.inorder := by
          unfold RB.insert at hres
          rw [insertLoc_descend] at hres
          split at hres
          · rename_i x hd
            simp only [Option.some.injEq] at hres
            subst hres
            have : ∀ (s : Tree (Ptr × δ)) p, descend (onData fun k x => cmp k (key x)) (key d) s p = .inl x → x ∈ s.inorder := by
              intro s
              induction s with
              | nil => intro p hp; cases hp
              | node c l y r ihl ihr =>
                intro p hp
                simp only [descend] at hp
                simp only [Tree.inorder, List.mem_append, List.mem_cons]
                split at hp
                · exact Or.inl (ihl _ hp)
                · split at hp
                  · exact Or.inr (Or.inr (ihr _ hp))
                  · cases hp; exact Or.inr (Or.inl rfl)
            exact this t [] hd
          · split at hres
            · cases hres
            · simp only [Option.some.injEq] at hres; subst hres; cases g1
        obtain ⟨w, l, r, e1, _⟩ := rep_mem hv.is.2.1 _ hmem
        refine ⟨h, t', ?_, ?_⟩
        · simp only [stepHeap, Option.bind_eq_bind, g2, Option.bind_some, Bool.false_eq_true, if_false, e1, ← hs2, g1]
        · rw [g3] at hs1; subst hs1; exact ⟨hv.is, hr, hv.out, hv.inn⟩
      · have hmem : (a, d) ∈ res.tree.inorder := by
          have h3 := (g5.same a).2 (Or.inr rfl)
          obtain ⟨x, hx, hxa⟩ := List.mem_map.1 h3
          obtain ⟨w, l, r, e1, e2⟩ := rep_mem g5.is.2.1 x hx
          have e3 : h2.mem a = some ⟨w, l, r, x.2⟩ := by rw [← hxa]; exact e2
          have : x.2 = d := by
            unfold storeData Heap.modify at g4
            split at g4
            · cases g4
            · simp only [Option.some.injEq] at g4
              rw [← g4, set_mem] at e3
              simp only [Option.some.injEq, Node.mk.injEq] at e3
              exact e3.2.2.2.symm
          have : x = (a, d) := Prod.ext hxa this
          rw [← this]; exact hx
        obtain ⟨w, l, r, e1, _⟩ := rep_mem g5.is.2.1 _ hmem
        refine ⟨h2, t', ?_, ?_⟩
        · simp only at e1
          simp only [stepHeap, Option.bind_eq_bind, g3, Option.bind_some, if_true, g4, e1, ← hs2, g1, g2]
        · subst hs1
          refine ⟨g5.is, hr, fun b hb => ?_, fun b hb => ?_⟩
          · have hb' : b ∉ addrs t ∧ b ≠ a := by
              constructor
              · exact fun e => hb ((g5.same b).2 (Or.inl e))
              · exact fun e => hb ((g5.same b).2 (Or.inr e))
            rw [g5.off b hb'.1 hb'.2]; exact hv.out b hb'.1
          · rcases (g5.same b).1 hb with hb | rfl
            · exact hv.inn b hb
            · exact hMa
  | remove k =>
    have hfr := find_refines (fun k x => cmp k (key x)) k hv.is
    simp only [HOp.op] at hs hr ⊢
    generalize Spec.step (fun x : Ptr × δ => key x.2) m (.remove k) = sp at hs hr ⊢
    simp only [RB.stepTree] at hs
    change find _ k h = some (locPtr (RB.find (fun k (x : Ptr × δ) => cmp k (key x.2)) k t)) at hfr
    split at hs
    · rename_i hf
      simp only [Option.some.injEq, Prod.mk.injEq] at hs
      obtain ⟨hs1, hs2⟩ := hs
      subst hs1
      rw [hf] at hfr
      refine ⟨h, t, ?_, ⟨hv.is, hr, hv.out, hv.inn⟩⟩
      simp only [stepHeap, Option.bind_eq_bind, hfr, Option.bind_some, locPtr_none, if_true, ← hs2]
    · rename_i z hf
      split at hs
      · cases hs
      · rename_i t2 hrm
        simp only [Option.some.injEq, Prod.mk.injEq] at hs
        obtain ⟨hs1, hs2⟩ := hs
        subst hs1
        rw [hf] at hfr
        have hz : z.root = t := (RB.findLoc_some hc hf).1
        subst hz
        obtain ⟨h1, e1, c1, f1⟩ := remove_refines hv.is hrm
        refine ⟨h1, t2, ?_, ⟨c1.is, hr, fun b hb => ?_, fun b hb => ?_⟩⟩
        · simp only [stepHeap, Option.bind_eq_bind, hfr, Option.bind_some, locPtr_some, is_loc_ne hv.is, if_false, e1, ← hs2]
        · by_cases hb2 : b = z.x.1
          · subst hb2
            rw [f1, hv.inn _ (List.mem_map_of_mem (loc_mem rfl))]
          · have hb3 : b ∉ addrs z.root := fun e => hb ((c1.same b).2 ⟨e, hb2⟩)
            rw [c1.off b hb3, hv.out b hb3]
        · exact hv.inn b ((c1.same b).1 hb).1
  | find k =>
    have hfr := find_refines (fun k x => cmp k (key x)) k hv.is
    simp only [HOp.op] at hs hr ⊢
    generalize Spec.step (fun x : Ptr × δ => key x.2) m (.find k) = sp at hs hr ⊢
    simp only [RB.stepTree, Option.some.injEq, Prod.mk.injEq] at hs
    obtain ⟨hs1, hs2⟩ := hs
    subst hs1
    change find _ k h = some (locPtr (RB.find (fun k (x : Ptr × δ) => cmp k (key x.2)) k t)) at hfr
    refine ⟨h, t, ?_, ⟨hv.is, hr, hv.out, hv.inn⟩⟩
    cases hf : RB.find (fun k (x : Ptr × δ) => cmp k (key x.2)) k t with
    | none =>
      rw [hf] at hfr hs2
      simp only [stepHeap, Option.bind_eq_bind, hfr, Option.bind_some, locPtr_none, if_true, ← hs2, Option.map_none]
    | some z =>
      rw [hf] at hfr hs2
      have hz : z.root = t := (RB.findLoc_some hc hf).1
      subst hz
      obtain ⟨w, l, r, e1, _⟩ := rep_mem hv.is.2.1 z.x (loc_mem rfl)
      simp only [stepHeap, Option.bind_eq_bind, hfr, Option.bind_some, locPtr_some, is_loc_ne hv.is, if_false, e1, ← hs2, Option.map_some]

theorem HInv.run [DecidableEq κ] {cmp : κ → κ → Int} {key : δ → κ} (hc : IsOrder cmp) {M : Ptr → Option (Node δ)} (ops : List (HOp κ δ)) :
    ∀ {h : Heap δ} {t : Tree (Ptr × δ)} {m : Spec κ (Ptr × δ)}, HInv cmp key M h t m → AllocOK cmp key h ops →
    ∃ h' t', runHeap cmp key h ops = some (h', (Spec.run (fun x : Ptr × δ => key x.2) m (ops.map HOp.op)).2) ∧
      HInv cmp key M h' t' (Spec.run (fun x : Ptr × δ => key x.2) m (ops.map HOp.op)).1 := by
  induction ops with
  | nil => intro h t m hv _; exact ⟨h, t, rfl, hv⟩
  | cons o os ih =>
    intro h t m hv ha
    obtain ⟨h1, t1, e1, v1⟩ := hv.step hc o ha.1
    obtain ⟨h2, t2, e2, v2⟩ := ih v1 (ha.2 _ e1)
    exact ⟨h2, t2, by simp only [runHeap, Option.bind_eq_bind, e1, Option.bind_some, e2, List.map_cons, Spec.run], v2⟩

/-- **C46.** Every history of insert / find / remove on an initially empty tree, whatever else is in memory and wherever the allocator puts the nodes: no NULL or dangling pointer is followed and every
loop ends; the answers (addresses, data and flags) are those of a finite map; at the end memory holds a red-black tree with consistent links that consists of exactly the entries of the map, in order;
and everything else in memory is as it was, the removed nodes having been freed. -/
theorem heap_tree_is_ordered_map [DecidableEq κ] (cmp : κ → κ → Int) (hc : IsOrder cmp) (key : δ → κ) (h0 : Heap δ) (h00 : h0.root = 0) (ops : List (HOp κ δ))
    (ha : AllocOK cmp key h0 ops) :
    ∃ h' t, runHeap cmp key h0 ops = some (h', (Spec.run (fun x : Ptr × δ => key x.2) (fun _ => none) (ops.map HOp.op)).2) ∧
      Is h' t ∧ Valid t ∧ Sorted cmp (fun x : Ptr × δ => key x.2) t.inorder ∧
      (∀ k x, (Spec.run (fun x : Ptr × δ => key x.2) (fun _ => none) (ops.map HOp.op)).1 k = some x ↔ x ∈ t.inorder ∧ key x.2 = k) ∧
      ∀ b, b ∉ addrs t → h'.mem b = h0.mem b := by
  have hv : HInv cmp key h0.mem h0 .nil (fun _ => none) :=
    ⟨⟨h00, trivial, by simp [addrs_nil]⟩, RB.Refines.empty _ _, fun _ _ => rfl, fun b hb => by simp [addrs_nil] at hb⟩
  obtain ⟨h', t', e, v⟩ := hv.run hc ops ha
  exact ⟨h', t', e, v.is, v.ref.1, v.ref.2.1, v.ref.2.2, v.out⟩

/-! ## What a represented tree looks like to somebody who follows pointers -/

theorem rep_links {t : Tree (Ptr × δ)} : ∀ {par : Ptr}, Rep h par t → ∀ a ∈ addrs t, ∃ n, h.mem a = some n ∧ (n.left ≠ 0 → n.left ∈ addrs t ∧ ∃ m, h.mem n.left = some m ∧ rbParent m.pc = a) ∧
      (n.right ≠ 0 → n.right ∈ addrs t ∧ ∃ m, h.mem n.right = some m ∧ rbParent m.pc = a) ∧
      (a ≠ ptr t → ∃ q ∈ addrs t, rbParent n.pc = q ∧ ∃ m, h.mem q = some m ∧ (m.left = a ∨ m.right = a)) ∧ (a = ptr t → rbParent n.pc = par) := by
  induction t with
  | nil => intro par _ a ha; simp [addrs_nil] at ha
  | node c l x r ihl ihr =>
    intro par hr a ha
    simp only [addrs_node, List.mem_append, List.mem_cons] at ha ⊢
    obtain ⟨⟨h0, hal, w, e1, e2, e3⟩, hl, hrr⟩ := hr
    have child : ∀ (s : Tree (Ptr × δ)), Rep h x.1 s → ptr s ≠ 0 → ptr s ∈ addrs s ∧ ∃ m, h.mem (ptr s) = some m ∧ rbParent m.pc = x.1 := by
      intro s hs h1
      cases s with
      | nil => exact absurd rfl h1
      | node sc sl sx sr =>
        obtain ⟨_, _, w', f1, f2, _⟩ := hs.1
        exact ⟨Rep.ptr_mem (by simp), _, f1, f2⟩
    have sub : ∀ (s : Tree (Ptr × δ)), Rep h x.1 s → (∀ b, b ∈ addrs s → b ∈ addrs l ∨ b = x.1 ∨ b ∈ addrs r) →
        (∃ m, h.mem x.1 = some m ∧ (m.left = ptr s ∨ m.right = ptr s)) → a ∈ addrs s → a ≠ x.1 →
        (∃ n, h.mem a = some n ∧ (n.left ≠ 0 → n.left ∈ addrs s ∧ ∃ m, h.mem n.left = some m ∧ rbParent m.pc = a) ∧
          (n.right ≠ 0 → n.right ∈ addrs s ∧ ∃ m, h.mem n.right = some m ∧ rbParent m.pc = a) ∧
          (a ≠ ptr s → ∃ q ∈ addrs s, rbParent n.pc = q ∧ ∃ m, h.mem q = some m ∧ (m.left = a ∨ m.right = a)) ∧ (a = ptr s → rbParent n.pc = x.1)) →
        ∃ n, h.mem a = some n ∧ (n.left ≠ 0 → (n.left ∈ addrs l ∨ n.left = x.1 ∨ n.left ∈ addrs r) ∧ ∃ m, h.mem n.left = some m ∧ rbParent m.pc = a) ∧
          (n.right ≠ 0 → (n.right ∈ addrs l ∨ n.right = x.1 ∨ n.right ∈ addrs r) ∧ ∃ m, h.mem n.right = some m ∧ rbParent m.pc = a) ∧
          (a ≠ ptr (.node c l x r) → ∃ q, (q ∈ addrs l ∨ q = x.1 ∨ q ∈ addrs r) ∧ rbParent n.pc = q ∧ ∃ m, h.mem q = some m ∧ (m.left = a ∨ m.right = a)) ∧
          (a = ptr (.node c l x r) → rbParent n.pc = par) := by
      intro s hs hsub hx ha' hax ⟨n, n1, n2, n3, n4, n5⟩
      refine ⟨n, n1, fun g => ⟨hsub _ (n2 g).1, (n2 g).2⟩, fun g => ⟨hsub _ (n3 g).1, (n3 g).2⟩, fun _ => ?_, fun g => absurd g hax⟩
      by_cases g : a = ptr s
      · obtain ⟨m, m1, m2⟩ := hx
        exact ⟨x.1, Or.inr (Or.inl rfl), n5 g, m, m1, by rw [g]; exact m2⟩
      · obtain ⟨q, q1, q2, q3⟩ := n4 g
        exact ⟨q, hsub _ q1, q2, q3⟩
    by_cases hax : a = x.1
    · subst hax
      refine ⟨_, e1, fun g => ?_, fun g => ?_, fun g => absurd rfl g, fun _ => e2⟩
      · obtain ⟨g1, g2⟩ := child l hl g; exact ⟨Or.inl g1, g2⟩
      · obtain ⟨g1, g2⟩ := child r hrr g; exact ⟨Or.inr (Or.inr g1), g2⟩
    · rcases ha with ha | ha | ha
      · exact sub l hl (fun b hb => Or.inl hb) ⟨_, e1, Or.inl rfl⟩ ha hax (ihl hl a ha)
      · exact absurd ha hax
      · exact sub r hrr (fun b hb => Or.inr (Or.inr hb)) ⟨_, e1, Or.inr rfl⟩ ha hax (ihr hrr a ha)

/-- **C46**, in terms of words in memory: in a heap that represents a tree every node is allocated, a child's parent word leads back to it, its own parent word leads to the node that links to it, and
the root has no parent. -/
theorem heap_links_consistent {t : Tree (Ptr × δ)} (hi : Is h t) (a : Ptr) (ha : a ∈ addrs t) :
    ∃ n, h.mem a = some n ∧
      (n.left ≠ 0 → ∃ m, h.mem n.left = some m ∧ rbParent m.pc = a) ∧
      (n.right ≠ 0 → ∃ m, h.mem n.right = some m ∧ rbParent m.pc = a) ∧
      (a = h.root → rbParent n.pc = 0) ∧
      (a ≠ h.root → ∃ m, h.mem (rbParent n.pc) = some m ∧ (m.left = a ∨ m.right = a)) := by
  obtain ⟨n, n1, n2, n3, n4, n5⟩ := rep_links hi.2.1 a ha
  rw [hi.1]
  refine ⟨n, n1, fun g => (n2 g).2, fun g => (n3 g).2, n5, fun g => ?_⟩
  obtain ⟨q, _, q2, q3⟩ := n4 g
  rw [q2]; exact q3

/-! ## The iterator -/

theorem iterFrom_refines [DecidableEq (Ptr × δ)] {σ : Type} (cb : σ → δ → Verdict × σ) (fuel : Nat) : ∀ (h : Heap δ) (t : Tree (Ptr × δ)) (z : Option (Loc (Ptr × δ))) (s : σ) (vis : List (Ptr × δ))
    (res : RB.IterResult (Ptr × δ) σ), Is h t → (∀ z', z = some z' → z'.root = t) →
    RB.iterLoop (fun s (x : Ptr × δ) => cb s x.2) fuel t z s vis = some res →
    ∃ h', iterFrom cb h (locPtr z) s (vis.map Prod.fst) = some (h', res.state, res.visited.map Prod.fst) ∧ Is h' res.tree ∧
      (∀ b, b ∉ addrs t → h'.mem b = h.mem b) ∧ (∀ b, b ∈ addrs res.tree → b ∈ addrs t) ∧ (∀ b, b ∈ addrs t → b ∉ addrs res.tree → h'.mem b = none) := by
  induction fuel with
  | zero =>
    intro h t z s vis res hi hz he
    cases z with
    | none =>
      simp only [RB.iterLoop, Option.some.injEq] at he
      subst he
      refine ⟨h, ?_, hi, fun _ _ => rfl, fun _ hb => hb, fun b h1 h2 => absurd h1 h2⟩
      rw [iterFrom]; simp [locPtr_none]
    | some z => simp [RB.iterLoop] at he
  | succ n ih =>
    intro h t z s vis res hi hz he
    cases z with
    | none =>
      simp only [RB.iterLoop, Option.some.injEq] at he
      subst he
      refine ⟨h, ?_, hi, fun _ _ => rfl, fun _ hb => hb, fun b h1 h2 => absurd h1 h2⟩
      rw [iterFrom]; simp [locPtr_none]
    | some z =>
      have hzt := hz z rfl
      subst hzt
      have hnx := next_refines hi
      obtain ⟨w, l, r, e1, _⟩ := rep_mem hi.2.1 z.x (loc_mem rfl)
      rw [iterFrom]
      rw [if_neg (by exact is_loc_ne hi)]
      simp only [locPtr_some, Option.bind_eq_bind, hnx, Option.bind_some, e1]
      rw [RB.iterLoop.eq_def] at he
      simp only at he
      rcases hcb : cb s z.x.2 with ⟨v, s'⟩
      simp only [hcb] at he ⊢
      cases v with
      | brk =>
        simp only [Option.some.injEq] at he ⊢
        subst he
        exact ⟨h, by simp, hi, fun _ _ => rfl, fun _ hb => hb, fun b h1 h2 => absurd h1 h2⟩
      | cont =>
        simp only at he ⊢
        have := ih h z.root (RB.next z) s' (vis ++ [z.x]) res hi (by
          intro z' hz'
          have h1 := RB.next_ok z
          rw [hz'] at h1
          exact h1.1) he
        simpa using this
      | removeBrk =>
        simp only at he ⊢
        split at he
        · cases he
        · rename_i t' hrm
          simp only [Option.some.injEq] at he
          subst he
          obtain ⟨h1, g1, c1, f1⟩ := remove_refines hi hrm
          refine ⟨h1, by simp [g1], c1.is, c1.off, fun b hb => ((c1.same b).1 hb).1, fun b hb hb2 => ?_⟩
          by_cases hbx : b = z.x.1
          · rw [hbx]; exact f1
          · exact absurd ((c1.same b).2 ⟨hb, hbx⟩) hb2
      | removeCont =>
        simp only at he ⊢
        split at he
        · cases he
        · rename_i t' hrm
          obtain ⟨h1, g1, c1, f1⟩ := remove_refines hi hrm
          have fin : ∀ z2, locPtr (RB.next z) = locPtr z2 → (∀ z', z2 = some z' → z'.root = t') →
              RB.iterLoop (fun s (x : Ptr × δ) => cb s x.2) n t' z2 s' (vis ++ [z.x]) = some res →
              ∃ h', (Option.bind (remove h z.x.1) fun h => iterFrom cb h (locPtr (RB.next z)) s' (vis.map Prod.fst ++ [z.x.1])) = some (h', res.state, res.visited.map Prod.fst) ∧ Is h' res.tree ∧
                (∀ b, b ∉ addrs z.root → h'.mem b = h.mem b) ∧ (∀ b, b ∈ addrs res.tree → b ∈ addrs z.root) ∧ (∀ b, b ∈ addrs z.root → b ∉ addrs res.tree → h'.mem b = none) := by
            intro z2 hz2 hr2 he2
            obtain ⟨h2, k1, k2, k3, k4, k5⟩ := ih h1 t' z2 s' (vis ++ [z.x]) res c1.is hr2 he2
            refine ⟨h2, ?_, k2, fun b hb => ?_, fun b hb => ?_, fun b hb hb2 => ?_⟩
            · rw [g1, Option.bind_some, hz2]; simpa using k1
            · rw [k3 b (fun e => hb ((c1.same b).1 e).1), c1.off b hb]
            · exact ((c1.same b).1 (k4 b hb)).1
            · by_cases hbx : b = z.x.1
              · rw [k3 b (by rw [c1.same]; exact fun e => e.2 hbx), hbx, f1]
              · exact k5 b ((c1.same b).2 ⟨hb, hbx⟩) hb2
          cases hnz : RB.next z with
          | none =>
            rw [hnz] at he
            simp only at he
            have := fin none (by rw [hnz]) (by intro z' hz'; cases hz') he
            rw [hnz] at this; exact this
          | some z1 =>
            rw [hnz] at he
            simp only at he
            split at he
            · cases he
            · rename_i z2 hl
              have hl2 := RB.locate_some hl
              have := fin (some z2) (by rw [hnz, locPtr_some, locPtr_some, hl2.2]) (by intro z' hz'; cases hz'; exact hl2.1) he
              rw [hnz] at this; exact this

/-- **C46**, the iterator: on any represented red-black tree it ends without following a dangling pointer although the callback may have nodes removed (and freed) under way; the callback sees the nodes
in order until it asks to stop; exactly the nodes it asked to remove are out of the tree, and those are freed; no other memory changes. -/
theorem heap_iterator {σ : Type} (cb : σ → δ → Verdict × σ) {t : Tree (Ptr × δ)} (s : σ) (hi : Is h t) (hv : Valid t) :
    ∃ h' t', iterate cb h s = some (h', (specIter (fun s (x : Ptr × δ) => cb s x.2) s t.inorder).2.1, (specIter (fun s (x : Ptr × δ) => cb s x.2) s t.inorder).2.2.map Prod.fst) ∧
      Is h' t' ∧ Valid t' ∧ t'.inorder = (specIter (fun s (x : Ptr × δ) => cb s x.2) s t.inorder).1 ∧
      (∀ b, b ∉ addrs t → h'.mem b = h.mem b) ∧ (∀ b, b ∈ addrs t → b ∉ addrs t' → h'.mem b = none) := by
  classical
  have hn : t.inorder.Nodup := by
    have := hi.2.2
    unfold addrs List.Nodup at this
    rw [List.pairwise_map] at this
    exact this.imp (fun g e => g (congrArg Prod.fst e))
  obtain ⟨r, e1, e2, e3, e4, e5⟩ := RB.iterator_spec (fun s (x : Ptr × δ) => cb s x.2) t s hv hn
  unfold RB.iterate at e1
  obtain ⟨h', f1, f2, f3, _, f5⟩ := iterFrom_refines cb t.size h t (RB.first t) s [] r hi (by
    intro z hz
    have := RB.first_ok t
    rw [hz] at this
    exact this.1) e1
  refine ⟨h', r.tree, ?_, f2, e2, e3, f3, f5⟩
  unfold iterate
  simp only [Option.bind_eq_bind, first_refines hi, Option.bind_some]
  rw [← e4, ← e5]
  exact f1

/-! ## Walking with `rb_first` / `rb_next` and `rb_last` / `rb_prev` -/

/-- a client's loop `for (n = ...; n; n = rb_next(n))`, collecting the addresses -/
def walkFrom (step : Heap δ → Ptr → Option Ptr) (h : Heap δ) (node : Ptr) : Option (List Ptr) :=
  if node = 0 then some [] else do
    let q ← step h node
    let r ← walkFrom step h q
    some (node :: r)
partial_fixpoint

theorem walk_next_from (k : Nat) : ∀ (z : Loc (Ptr × δ)), z.post.length ≤ k → Is h z.root → walkFrom next h z.x.1 = some (z.x.1 :: z.post.map Prod.fst) := by
  induction k with
  | zero =>
    intro z hk hi
    have hp : z.post = [] := List.length_eq_zero_iff.1 (Nat.le_zero.1 hk)
    rw [walkFrom, if_neg (is_loc_ne hi)]
    have hn := RB.next_ok z
    cases hz : RB.next z with
    | none => simp only [Option.bind_eq_bind, next_refines hi, Option.bind_some, hz, locPtr_none]; rw [walkFrom]; simp [hp]
    | some z' => rw [hz] at hn; rw [hn.2.2] at hp; cases hp
  | succ k ih =>
    intro z hk hi
    rw [walkFrom, if_neg (is_loc_ne hi)]
    have hn := RB.next_ok z
    simp only [Option.bind_eq_bind, next_refines hi, Option.bind_some]
    cases hz : RB.next z with
    | none =>
      rw [hz] at hn
      simp only at hn
      simp only [locPtr_none]; rw [walkFrom]; simp [hn]
    | some z' =>
      rw [hz] at hn
      have := ih z' (by rw [hn.2.2] at hk; simp only [List.length_cons] at hk; omega) (by rw [hn.1]; exact hi)
      simp only [locPtr_some, this, Option.bind_some, hn.2.2, List.map_cons]

theorem walk_prev_from (k : Nat) : ∀ (z : Loc (Ptr × δ)), z.pre.length ≤ k → Is h z.root → walkFrom prev h z.x.1 = some (z.x.1 :: (z.pre.map Prod.fst).reverse) := by
  induction k with
  | zero =>
    intro z hk hi
    have hp : z.pre = [] := List.length_eq_zero_iff.1 (Nat.le_zero.1 hk)
    rw [walkFrom, if_neg (is_loc_ne hi)]
    have hn := RB.prev_ok z
    cases hz : RB.prev z with
    | none => simp only [Option.bind_eq_bind, prev_refines hi, Option.bind_some, hz, locPtr_none]; rw [walkFrom]; simp [hp]
    | some z' => rw [hz] at hn; rw [hn.2.2] at hp; simp at hp
  | succ k ih =>
    intro z hk hi
    rw [walkFrom, if_neg (is_loc_ne hi)]
    have hn := RB.prev_ok z
    simp only [Option.bind_eq_bind, prev_refines hi, Option.bind_some]
    cases hz : RB.prev z with
    | none =>
      rw [hz] at hn
      simp only at hn
      simp only [locPtr_none]; rw [walkFrom]; simp [hn]
    | some z' =>
      rw [hz] at hn
      have := ih z' (by rw [hn.2.2] at hk; simp only [List.length_append, List.length_singleton] at hk; omega) (by rw [hn.1]; exact hi)
      simp only [locPtr_some, this, Option.bind_some, hn.2.2, List.map_append, List.map_cons, List.map_nil, List.reverse_append, List.reverse_cons, List.reverse_nil, List.nil_append, List.cons_append]

/-- **C46**, traversal: following `rb_next` from `rb_first` visits exactly the nodes of the tree, in order, and ends; `rb_prev` from `rb_last` the same backwards. -/
theorem heap_walk {t : Tree (Ptr × δ)} (hi : Is h t) :
    (first h).bind (walkFrom next h) = some (addrs t) ∧ (last h).bind (walkFrom prev h) = some (addrs t).reverse := by
  constructor
  · rw [first_refines hi, Option.bind_some]
    have hf := RB.first_ok t
    cases hz : RB.first t with
    | none => rw [hz] at hf; simp only at hf; rw [hf, locPtr_none, walkFrom]; simp [addrs_nil]
    | some z =>
      rw [hz] at hf
      rw [locPtr_some, walk_next_from _ z (Nat.le_refl _) (by rw [hf.1]; exact hi)]
      have := Loc.inorder_root z
      rw [hf.1, hf.2] at this
      simp [addrs, this]
  · rw [last_refines hi, Option.bind_some]
    have hf := RB.last_ok t
    cases hz : RB.last t with
    | none => rw [hz] at hf; simp only at hf; rw [hf, locPtr_none, walkFrom]; simp [addrs_nil]
    | some z =>
      rw [hz] at hf
      rw [locPtr_some, walk_prev_from _ z (Nat.le_refl _) (by rw [hf.1]; exact hi)]
      have := Loc.inorder_root z
      rw [hf.1, hf.2] at this
      simp [addrs, this]

/-! ## Searching -/

/-- **C46**, `rbtree_find_cover` on memory: NULL exactly for the empty tree, otherwise the address of the node with the greatest key not above `k`, or of the last node if all keys are above `k`. -/
theorem heap_find_cover (cmp : κ → κ → Int) (hc : IsOrder cmp) (key : δ → κ) (k : κ) {t : Tree (Ptr × δ)} (hi : Is h t) (hs : Sorted cmp (fun x : Ptr × δ => key x.2) t.inorder) :
    (t.inorder = [] ∧ findCover (fun k x => cmp k (key x)) k h = some 0) ∨
    ∃ x ∈ t.inorder, findCover (fun k x => cmp k (key x)) k h = some x.1 ∧ x.1 ≠ 0 ∧
      ((cmp (key x.2) k ≤ 0 ∧ ∀ y ∈ t.inorder, cmp (key y.2) k ≤ 0 → cmp (key y.2) (key x.2) ≤ 0) ∨
       ((∀ y ∈ t.inorder, cmp k (key y.2) < 0) ∧ ∀ y ∈ t.inorder, cmp (key y.2) (key x.2) ≤ 0)) := by
  have h1 := findCover_refines (fun k x => cmp k (key x)) k hi
  have h2 := RB.find_cover_spec cmp hc (fun x : Ptr × δ => key x.2) t k hs
  change findCover _ k h = some (locPtr (RB.findCover (fun k (x : Ptr × δ) => cmp k (key x.2)) k t)) at h1
  split at h2
  · rename_i hn
    rw [hn] at h1
    exact Or.inl ⟨by rw [h2]; rfl, h1⟩
  · rename_i z hz
    rw [hz] at h1
    exact Or.inr ⟨z.x, h2.2.1, h1, is_loc_ne (by rw [h2.1]; exact hi), h2.2.2⟩

/-! ## Replacing a node -/

/-- **C46**, `rb_replace_node` with an allocated node that is not in the tree: the new node takes the place of the old one, everything else stays; the old node keeps its (stale) words. -/
theorem heap_replace {z : Loc (Ptr × δ)} {n : Ptr} {nn : Node δ} (hi : Is h z.root) (h0 : n ≠ 0) (hal : Aligned n) (hm : h.mem n = some nn) (hn : n ∉ addrs z.root) :
    ∃ h', replaceNode h z.x.1 n = some h' ∧ Is h' (RB.replaceAt z (n, z.x.2)) ∧ ∀ b, b ∉ addrs z.root → b ≠ n → h'.mem b = h.mem b := by
  obtain ⟨p, c, l, x, r⟩ := z
  have hi' : Is h (zip p (.node c l x r)) := hi
  have hn' : n ∉ addrs (zip p (.node c l x r)) := hn
  obtain ⟨hctx, ⟨hx, hl, hr⟩, hnd⟩ := hi'.z
  simp only [mem_addrs_zip, addrs_node, List.mem_append, List.mem_cons, not_or] at hn'
  simp only [addrs_node, List.nodup_append, List.nodup_cons, List.mem_append, List.mem_cons] at hnd
  rw [ptr_node] at hctx
  obtain ⟨w, l1, p1, k1⟩ := hx.load
  obtain ⟨h1, e1, _, c1, o1⟩ := hctx.relink hx.1 (by grind) (by grind) n
  have hl1 : Rep h1 x.1 l := hl.frame (fun b hb => o1 b (by grind))
  obtain ⟨h2, e2, c2, r2, o2⟩ := hl1.reparent (by grind) hal
  have hr2 : Rep h2 x.1 r := hr.frame (fun b hb => by rw [o2 b (by grind), o1 b (by grind)])
  obtain ⟨h3, e3, c3, r3, o3⟩ := hr2.reparent (by grind) hal
  have hx3 : h3.load x.1 = some ⟨w, ptr l, ptr r, x.2⟩ := by
    unfold Heap.load at l1 ⊢
    rw [if_neg hx.1] at l1 ⊢
    rw [o3 _ (by grind), o2 _ (by grind), o1 _ (by grind), l1]
  have hn3 : h3.load n = some nn := by
    unfold Heap.load
    rw [if_neg h0, o3 _ hn'.2.2.2, o2 _ hn'.2.1, o1 _ hn'.1, hm]
  have e4 := modify_some hn3 (fun _ => ⟨w, ptr l, ptr r, x.2⟩)
  have o4 := off_set h3 n (⟨w, ptr l, ptr r, x.2⟩ : Node δ)
  have m4 := set_mem h3 n (⟨w, ptr l, ptr r, x.2⟩ : Node δ)
  generalize h3.set n (⟨w, ptr l, ptr r, x.2⟩ : Node δ) = h4 at e4 o4 m4
  refine ⟨h4, ?_, ?_, ?_⟩
  · unfold replaceNode
    simp only [Option.bind_eq_bind, l1, Option.bind_some, p1, e1, e2, e3, hx3, e4]
  · refine (isZ_iff h4 p (.node c l (n, x.2) r)).1 ⟨?_, ⟨⟨h0, hal, w, m4, p1, k1⟩, ?_, ?_⟩, ?_⟩
    · exact c1.frame (by rw [o4.1, r3, r2]) (fun b hb => by rw [o4.2 b (by grind), o3 b (by grind), o2 b (by grind)])
    · exact c2.frame (fun b hb => by rw [o4.2 b (by grind), o3 b (by grind)])
    · exact c3.frame (fun b hb => by rw [o4.2 b (by grind)])
    · simp only [addrs_node, List.nodup_append, List.nodup_cons, List.mem_append, List.mem_cons]
      grind
  · intro b hb hbn
    have hb' : b ∉ addrs (zip p (.node c l x r)) := hb
    simp only [mem_addrs_zip, addrs_node, List.mem_append, List.mem_cons, not_or] at hb'
    rw [o4.2 b hbn, o3 b hb'.2.2.2, o2 b hb'.2.1, o1 b hb'.1]

/-! ## The hypotheses are met by concrete non-trivial cases -/

/-- the addresses the allocator returns in a history -/
def allocs : List (HOp κ δ) → List Ptr
  | [] => []
  | .insert a _ _ :: os => a :: allocs os
  | _ :: os => allocs os

theorem spec_step_values [DecidableEq κ] (key : δ → κ) (m : Spec κ (Ptr × δ)) (o : HOp κ δ) (k : κ) (x : Ptr × δ)
    (hx : (Spec.step (fun x : Ptr × δ => key x.2) m o.op).1 k = some x) : (∃ k', m k' = some x) ∨ x.1 ∈ allocs [o] := by
  cases o with
  | insert a junk d =>
    simp only [HOp.op, Spec.step] at hx
    split at hx
    · exact Or.inl ⟨k, hx⟩
    · simp only at hx
      split at hx
      · simp only [Option.some.injEq] at hx; subst hx; exact Or.inr (by simp [allocs])
      · exact Or.inl ⟨k, hx⟩
  | remove k' =>
    simp only [HOp.op, Spec.step] at hx
    split at hx
    · simp only at hx
      split at hx
      · cases hx
      · exact Or.inl ⟨k, hx⟩
    · exact Or.inl ⟨k, hx⟩
  | find k' => exact Or.inl ⟨k, hx⟩

theorem alloc_ok_aux [DecidableEq κ] {cmp : κ → κ → Int} {key : δ → κ} (hc : IsOrder cmp) {M : Ptr → Option (Node δ)} (ops : List (HOp κ δ)) :
    ∀ {h : Heap δ} {t : Tree (Ptr × δ)} {m : Spec κ (Ptr × δ)}, HInv cmp key M h t m → (allocs ops).Nodup →
      (∀ a ∈ allocs ops, a ≠ 0 ∧ Aligned a ∧ M a = none ∧ a ∉ addrs t) → AllocOK cmp key h ops := by
  induction ops with
  | nil => intros; trivial
  | cons o os ih =>
    intro h t m hv hn ha
    have hok : o.allocOK h := by
      cases o with
      | insert a junk d =>
        obtain ⟨g1, g2, g3, g4⟩ := ha a (by simp [allocs])
        exact ⟨g1, g2, by rw [hv.out a g4]; exact g3⟩
      | remove k => trivial
      | find k => trivial
    have hal : allocs (o :: os) = allocs [o] ++ allocs os := by cases o <;> simp [allocs]
    rw [hal] at hn ha
    refine ⟨hok, fun r hr => ?_⟩
    obtain ⟨h', t', e, v⟩ := hv.step hc o hok
    rw [e] at hr
    simp only [Option.some.injEq] at hr
    subst hr
    refine ih v (List.nodup_append.1 hn).2.1 (fun a haa => ?_)
    obtain ⟨g1, g2, g3, g4⟩ := ha a (by simp [haa])
    refine ⟨g1, g2, g3, fun hat => ?_⟩
    obtain ⟨x, hx, rfl⟩ := List.mem_map.1 hat
    have hm := (v.ref.2.2 (key x.2) x).2 ⟨hx, rfl⟩
    rcases spec_step_values key m o _ x hm with ⟨k', hk'⟩ | hx2
    · exact g4 (List.mem_map_of_mem ((hv.ref.2.2 k' x).1 hk').1)
    · exact (List.nodup_append.1 hn).2.2 _ hx2 _ haa rfl

/-- An allocator that returns distinct addresses which were free at the start keeps its contract. -/
theorem alloc_ok_of_distinct [DecidableEq κ] {cmp : κ → κ → Int} {key : δ → κ} (hc : IsOrder cmp) (h0 : Heap δ) (h00 : h0.root = 0) (ops : List (HOp κ δ))
    (hn : (allocs ops).Nodup) (ha : ∀ a ∈ allocs ops, Fresh h0 a) : AllocOK cmp key h0 ops := by
  have hv : HInv cmp key h0.mem h0 .nil (fun _ => none) :=
    ⟨⟨h00, trivial, by simp [addrs_nil]⟩, RB.Refines.empty _ _, fun _ _ => rfl, fun b hb => by simp [addrs_nil] at hb⟩
  exact alloc_ok_aux hc ops hv hn (fun a h => ⟨(ha a h).1, (ha a h).2.1, (ha a h).2.2, by simp [addrs_nil]⟩)

/-- a concrete history: five nodes, a duplicate, the removal of an inner node -/
def demoHOps : List (HOp Int Int) :=
  [.insert 16 ⟨7, 7, 7, 7⟩ 5, .insert 32 ⟨0, 1, 2, 3⟩ 3, .insert 48 ⟨0, 0, 0, 0⟩ 8, .insert 64 ⟨0, 0, 0, 0⟩ 1, .insert 80 ⟨0, 0, 0, 0⟩ 2, .insert 96 ⟨0, 0, 0, 0⟩ 5, .remove 3, .find 2, .find 3]

/-- a memory with something else in it -/
def demoHeap : Heap Int := ⟨fun a => if a = 1024 then some ⟨1, 2, 3, 4⟩ else none, 0⟩

theorem demo_allocOK : AllocOK RB.intCmp id demoHeap demoHOps := by
  refine alloc_ok_of_distinct RB.intCmp_order demoHeap rfl demoHOps (by decide) ?_
  intro a ha
  simp only [allocs, demoHOps, List.mem_cons, List.not_mem_nil, or_false] at ha
  rcases ha with rfl | rfl | rfl | rfl | rfl | rfl <;> refine ⟨by decide, by unfold Aligned; decide, by decide⟩

example : ∃ h' t, runHeap RB.intCmp id demoHeap demoHOps = some (h',
    [.inserted (16, 5) true, .inserted (32, 3) true, .inserted (48, 8) true, .inserted (64, 1) true, .inserted (80, 2) true, .inserted (16, 5) false, .removed true, .found (some (80, 2)), .found none]) ∧
    Is h' t ∧ h'.mem 32 = none ∧ h'.mem 1024 = some ⟨1, 2, 3, 4⟩ := by
  obtain ⟨h', t, e1, e2, _, _, e5, e6⟩ := heap_tree_is_ordered_map RB.intCmp RB.intCmp_order id demoHeap rfl demoHOps demo_allocOK
  have hno : ∀ b : Ptr, (∀ d : Int, (Spec.run (fun x : Ptr × Int => id x.2) (fun _ => none) (demoHOps.map HOp.op)).1 d ≠ some (b, d)) → b ∉ addrs t := by
    intro b hb hm
    obtain ⟨x, hx, rfl⟩ := List.mem_map.1 hm
    exact hb x.2 ((e5 x.2 x).2 ⟨hx, rfl⟩)
  refine ⟨h', t, by rw [e1]; rfl, e2, ?_, ?_⟩
  · rw [e6 32 (hno 32 ?_)]; rfl
    intro d hd
    simp only [Spec.run, Spec.step, demoHOps, List.map, HOp.op, id] at hd
    simp at hd
    grind
  · rw [e6 1024 (hno 1024 ?_)]; rfl
    intro d hd
    simp only [Spec.run, Spec.step, demoHOps, List.map, HOp.op, id] at hd
    simp at hd
    grind

end Kasync.RBHeap
