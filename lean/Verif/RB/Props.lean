import Verif.RB.Search

/-!
# Property theorems for src/krbtree.c: C01 (ordered map), C02 (traversal), C03 (balance, NULL safety),
C04 (find_cover), C05 (iteration with removal)

All theorems quantify over every comparator that is a total order (`IsOrder`), every payload type and
every history of operations.
-/

namespace Kasync.RB

variable {α κ : Type}

/-- The relation between a tree of the code and the abstract map: the tree is a red-black tree whose
listing is strictly ascending, and it contains exactly the nodes of the map. -/
def Refines (cmp : κ → κ → Int) (key : α → κ) (t : Tree α) (m : Spec κ α) : Prop :=
  Valid t ∧ Sorted cmp key t.inorder ∧ ∀ k a, m k = some a ↔ a ∈ t.inorder ∧ key a = k

theorem Refines.empty (cmp : κ → κ → Int) (key : α → κ) :
    Refines cmp key Tree.nil (fun _ => none) :=
  ⟨⟨rfl, trivial, 0, rfl⟩, by simp [Sorted, Tree.inorder], by simp [Tree.inorder]⟩

theorem Refines.find {cmp : κ → κ → Int} {key : α → κ} (hc : IsOrder cmp) {t : Tree α} {m : Spec κ α}
    (h : Refines cmp key t m) (k : κ) :
    (find (fun k x => cmp k (key x)) k t).map Loc.x = m k := by
  obtain ⟨_, hs, hm⟩ := h
  cases hf : RB.find (fun k x => cmp k (key x)) k t with
  | none =>
    have := findLoc_none hc hs hf
    cases hk : m k with
    | none => rfl
    | some a => exact absurd ((hm k a).1 hk).2 (this a ((hm k a).1 hk).1)
  | some z =>
    obtain ⟨h1, h2⟩ := findLoc_some hc hf
    simp only [zip] at h1
    have : z.x ∈ t.inorder := by rw [← h1, Loc.inorder_root]; simp
    exact ((hm k z.x).2 ⟨this, h2⟩).symm

/-- one operation: the code does what the map does, without undefined behaviour -/
theorem Refines.step [DecidableEq κ] {cmp : κ → κ → Int} {key : α → κ} (hc : IsOrder cmp) {t : Tree α}
    {m : Spec κ α} (h : Refines cmp key t m) (o : Op κ α) :
    ∃ t', stepTree cmp key t o = some (t', (Spec.step key m o).2) ∧
      Refines cmp key t' (Spec.step key m o).1 := by
  have hfind := h.find hc
  obtain ⟨hv, hs, hm⟩ := h
  have huniq : ∀ a b, a ∈ t.inorder → b ∈ t.inorder → key a = key b → a = b := by
    intro a b ha hb hk
    have e1 := (hm (key b) a).2 ⟨ha, hk⟩
    have e2 := (hm (key b) b).2 ⟨hb, rfl⟩
    rw [e1] at e2; exact Option.some.inj e2
  cases o with
  | find k => exact ⟨t, by simp [stepTree, Spec.step, hfind k], hv, hs, hm⟩
  | insert a =>
    rcases insertLoc_ok (k := key a) (a := a) (root := t) (t := t) (p := []) hc rfl hv hs (by simp [before]) (by simp [after]) with
      ⟨x, h1, h2, h3⟩ | ⟨t', l1, l2, h1, h2, h3, h4, h5, h6⟩
    · have hx := (hm (key a) x).2 ⟨h2, h3⟩
      refine ⟨t, by simp [stepTree, insert, h1, Spec.step, hx], by simpa [Spec.step, hx] using ⟨hv, hs, hm⟩⟩
    · have hnone : m (key a) = none := by
        cases hk : m (key a) with
        | none => rfl
        | some b =>
          exfalso
          obtain ⟨hb1, hb2⟩ := (hm _ _).1 hk
          rw [h3, List.mem_append] at hb1
          rcases hb1 with hb1 | hb1
          · have := h5 b hb1; rw [hb2, cmp_self hc] at this; omega
          · have := h6 b hb1; rw [hb2, cmp_self hc] at this; omega
      refine ⟨t', by simp [stepTree, insert, h1, Spec.step, hnone], ?_⟩
      simp only [Spec.step, hnone]
      refine ⟨h2, ?_, ?_⟩
      · rw [h4]
        rw [h3] at hs
        unfold Sorted at *
        rw [List.pairwise_append] at *
        refine ⟨hs.1, List.pairwise_cons.2 ⟨h6, hs.2.1⟩, ?_⟩
        intro x hx y hy
        rcases List.mem_cons.1 hy with rfl | hy
        · exact h5 x hx
        · exact hs.2.2 x hx y hy
      · intro k b
        rw [h4]
        have hmem : b ∈ t.inorder ↔ b ∈ l1 ∨ b ∈ l2 := by rw [h3, List.mem_append]
        dsimp only
        split
        · rename_i hk
          subst hk
          simp only [List.mem_append, List.mem_cons, Option.some.injEq]
          constructor
          · rintro rfl; exact ⟨.inr (.inl rfl), rfl⟩
          · rintro ⟨hb | rfl | hb, hkb⟩
            · have := (hm (key a) b).2 ⟨hmem.2 (.inl hb), hkb⟩; rw [hnone] at this; cases this
            · rfl
            · have := (hm (key a) b).2 ⟨hmem.2 (.inr hb), hkb⟩; rw [hnone] at this; cases this
        · rename_i hk
          rw [hm, hmem]
          simp only [List.mem_append, List.mem_cons]
          constructor
          · rintro ⟨hb | hb, hkb⟩
            · exact ⟨.inl hb, hkb⟩
            · exact ⟨.inr (.inr hb), hkb⟩
          · rintro ⟨hb | rfl | hb, hkb⟩
            · exact ⟨.inl hb, hkb⟩
            · exact absurd hkb.symm hk
            · exact ⟨.inr hb, hkb⟩
  | remove k =>
    have hk := hfind k
    cases hf : RB.find (fun k x => cmp k (key x)) k t with
    | none =>
      rw [hf] at hk
      simp only [Option.map_none] at hk
      exact ⟨t, by simp [stepTree, hf, Spec.step, ← hk], by simpa [Spec.step, ← hk] using ⟨hv, hs, hm⟩⟩
    | some z =>
      rw [hf] at hk
      simp only [Option.map_some] at hk
      obtain ⟨h1, h2⟩ := findLoc_some hc hf
      simp only [zip] at h1
      obtain ⟨t', r1, r2, r3⟩ := removeAt_ok z (by rw [h1]; exact hv)
      refine ⟨t', by simp [stepTree, hf, r1, Spec.step, ← hk], ?_⟩
      simp only [Spec.step, ← hk]
      have hin : t.inorder = z.pre ++ z.x :: z.post := by rw [← h1, Loc.inorder_root]
      refine ⟨r2, ?_, ?_⟩
      · rw [r3]; rw [hin] at hs
        exact List.Pairwise.sublist (List.Sublist.append_left (List.sublist_cons_self _ _) _) hs
      · intro k' b
        have hlt : ∀ y ∈ z.pre ++ z.post, key y ≠ key z.x := by
          unfold Sorted at hs
          rw [hin, List.pairwise_append, List.pairwise_cons] at hs
          intro y hy he
          rcases List.mem_append.1 hy with hy | hy
          · have := hs.2.2 y hy z.x (by simp); rw [he, cmp_self hc] at this; omega
          · have := hs.2.1.1 y hy; rw [he, cmp_self hc] at this; omega
        rw [r3]
        dsimp only
        split
        · rename_i he
          subst he
          simp only [false_iff, reduceCtorEq]
          rintro ⟨hb, hkb⟩
          exact hlt b hb (by rw [hkb, h2])
        · rename_i he
          rw [hm, hin]
          simp only [List.mem_append, List.mem_cons]
          constructor
          · rintro ⟨hb | rfl | hb, hkb⟩
            · exact ⟨.inl hb, hkb⟩
            · exact absurd (hkb.symm.trans h2) he
            · exact ⟨.inr hb, hkb⟩
          · rintro ⟨hb | hb, hkb⟩
            · exact ⟨.inl hb, hkb⟩
            · exact ⟨.inr (.inr hb), hkb⟩

theorem Refines.run [DecidableEq κ] {cmp : κ → κ → Int} {key : α → κ} (hc : IsOrder cmp) {t : Tree α}
    {m : Spec κ α} (h : Refines cmp key t m) (os : List (Op κ α)) :
    ∃ t', runTree cmp key t os = some (t', (Spec.run key m os).2) ∧
      Refines cmp key t' (Spec.run key m os).1 := by
  induction os generalizing t m with
  | nil => exact ⟨t, rfl, h⟩
  | cons o os ih =>
    obtain ⟨t1, h1, h2⟩ := h.step hc o
    obtain ⟨t2, h3, h4⟩ := ih h2
    exact ⟨t2, by simp [runTree, h1, h3, Spec.run], h4⟩

/-- **C01.** Every history of insert / find / remove on an initially empty tree runs without undefined
behaviour, gives exactly the answers of a finite map, and leaves a tree with exactly the map's nodes
in strictly ascending key order. -/
theorem rbtree_is_ordered_map [DecidableEq κ] (cmp : κ → κ → Int) (hc : IsOrder cmp) (key : α → κ)
    (ops : List (Op κ α)) :
    ∃ t, runTree cmp key Tree.nil ops = some (t, (Spec.run key (fun _ => none) ops).2) ∧
      Sorted cmp key t.inorder ∧
      ∀ k a, (Spec.run key (fun _ => none) ops).1 k = some a ↔ a ∈ t.inorder ∧ key a = k := by
  obtain ⟨t, h1, h2, h3, h4⟩ := (Refines.empty cmp key).run hc ops
  exact ⟨t, h1, h3, h4⟩

/-- **C01**, removal through any node pointer (not only one returned by a find): exactly that node
disappears, all others keep their order. -/
theorem rbtree_remove_exact (z : Loc α) (h : Valid z.root) :
    ∃ t l1 l2, removeAt z = some t ∧ z.root.inorder = l1 ++ z.x :: l2 ∧ t.inorder = l1 ++ l2 := by
  obtain ⟨t, h1, _, h3⟩ := removeAt_ok z h
  exact ⟨t, z.pre, z.post, h1, Loc.inorder_root z, h3⟩

/-- **C02.** `rb_first`/`rb_next` visit exactly the nodes in order, once each, and stop. -/
theorem walk_next_visits_all (t : Tree α) : walkNext (t.size + 1) (first t) = some t.inorder := by
  have h := first_ok t
  split at h
  · rename_i h1; rw [h1]; subst h; rfl
  · rename_i z h1
    rw [h1, walkNext_ok]
    · rw [← h.1, Loc.inorder_root, h.2]; rfl
    · rw [size_eq_length, ← h.1, Loc.inorder_root]; simp; omega

/-- **C02.** `rb_last`/`rb_prev` visit the same nodes in the opposite order. -/
theorem walk_prev_visits_all (t : Tree α) : walkPrev (t.size + 1) (last t) = some t.inorder.reverse := by
  have h := last_ok t
  split at h
  · rename_i h1; rw [h1]; subst h; rfl
  · rename_i z h1
    rw [h1, walkPrev_ok]
    · rw [← h.1, Loc.inorder_root, h.2]; simp
    · rw [size_eq_length, ← h.1, Loc.inorder_root]; simp; omega

/-- **C02.** On every tree the API can produce, `rb_next` of a node is the node with the least greater
key (NULL when there is none). -/
theorem next_is_least_greater (cmp : κ → κ → Int) (key : α → κ) (z : Loc α)
    (hs : Sorted cmp key z.root.inorder) :
    match next z with
    | none => ∀ y ∈ z.root.inorder, y = z.x ∨ cmp (key y) (key z.x) < 0
    | some z' => z'.root = z.root ∧ z'.x ∈ z.root.inorder ∧ cmp (key z.x) (key z'.x) < 0 ∧
        ∀ y ∈ z.root.inorder, y = z.x ∨ cmp (key y) (key z.x) < 0 ∨ y = z'.x ∨ cmp (key z'.x) (key y) < 0 := by
  have h := next_ok z
  rw [Loc.inorder_root] at hs
  unfold Sorted at hs
  rw [List.pairwise_append, List.pairwise_cons] at hs
  split at h
  · rename_i h0
    simp only [h0, Loc.inorder_root, h]
    intro y hy
    simp only [List.mem_append, List.mem_cons, List.not_mem_nil, or_false] at hy
    rcases hy with hy | rfl
    · exact .inr (hs.2.2 y hy z.x (by simp))
    · exact .inl rfl
  · rename_i z' h0
    obtain ⟨h1, h2, h3⟩ := h
    simp only [h0]
    refine ⟨h1, by rw [Loc.inorder_root, h3]; simp, hs.2.1.1 z'.x (by rw [h3]; simp), ?_⟩
    rw [Loc.inorder_root, h3]
    intro y hy
    simp only [List.mem_append, List.mem_cons] at hy
    rcases hy with hy | rfl | rfl | hy
    · exact .inr (.inl (hs.2.2 y hy z.x (by simp)))
    · exact .inl rfl
    · exact .inr (.inr (.inl rfl))
    · rw [h3, List.pairwise_cons] at hs
      exact .inr (.inr (.inr (hs.2.1.2.1 y hy)))

/-- **C02.** `rb_prev` undoes `rb_next`. -/
theorem prev_next (z z' : Loc α) (h : next z = some z') :
    ∃ z'', prev z' = some z'' ∧ z''.x = z.x ∧ z''.root = z.root := by
  have h1 := next_ok z
  rw [h] at h1
  obtain ⟨n1, n2, n3⟩ := h1
  have h2 := prev_ok z'
  split at h2
  · rw [n2] at h2; simp at h2
  · rename_i z'' h3
    obtain ⟨p1, p2, p3⟩ := h2
    rw [n2] at p3
    have := List.append_inj' p3 rfl
    exact ⟨z'', h3, by simpa using this.2.symm, p1.trans n1⟩

/-- **C03.** After any history the tree is a red-black tree, hence no lookup inspects more than
`2 * log2 (n + 1)` nodes (`runTree` is never `none`, i.e. no NULL is dereferenced, by `rbtree_is_ordered_map`). -/
theorem rbtree_balanced [DecidableEq κ] (cmp : κ → κ → Int) (hc : IsOrder cmp) (key : α → κ)
    (ops : List (Op κ α)) (t : Tree α) (outs : List (Out α))
    (h : runTree cmp key Tree.nil ops = some (t, outs)) :
    Valid t ∧ t.height ≤ 2 * Nat.log2 (t.size + 1) := by
  obtain ⟨t', h1, h2, h3, h4⟩ := (Refines.empty cmp key).run hc ops
  rw [h1] at h
  cases h
  refine ⟨h2, ?_⟩
  obtain ⟨n, hb⟩ := h2.2.2
  have a := height_le_BH hb h2.2.1
  have b := pow_BH_le_size hb
  rw [h2.1] at a
  have c : n ≤ Nat.log2 (t.size + 1) := (Nat.le_log2 (by omega)).2 b
  simp at a
  omega

/-- `n` nodes are on some way from the root of the tree down to a NULL link. -/
inductive Way : Tree α → Nat → Prop
  | nil : Way .nil 0
  | left {c l x r n} : Way l n → Way (.node c l x r) (n + 1)
  | right {c l x r n} : Way r n → Way (.node c l x r) (n + 1)

theorem Way.le_height {t : Tree α} {n : Nat} (h : Way t n) : n ≤ t.height := by
  induction h with
  | nil => exact Nat.zero_le _
  | left _ ih => simp only [Tree.height]; omega
  | right _ ih => simp only [Tree.height]; omega

/-- **C03.** After any history no way from the root down meets more than `2 * log2 (n + 1)` of the `n` nodes. -/
theorem rbtree_ways_short [DecidableEq κ] (cmp : κ → κ → Int) (hc : IsOrder cmp) (key : α → κ)
    (ops : List (Op κ α)) (t : Tree α) (outs : List (Out α))
    (h : runTree cmp key Tree.nil ops = some (t, outs)) (n : Nat) (hn : Way t n) : n ≤ 2 * Nat.log2 (t.inorder.length + 1) := by
  have hs : ∀ t : Tree α, t.inorder.length = t.size := by
    intro t
    induction t with
    | nil => rfl
    | node c l x r ihl ihr => simp only [Tree.inorder, Tree.size, List.length_append, List.length_cons, ihl, ihr]; omega
  rw [hs]
  exact Nat.le_trans hn.le_height (rbtree_balanced cmp hc key ops t outs h).2

/-- **C03**, NULL safety of the rebalancing code for a removal anywhere in any red-black tree. -/
theorem rb_erase_safe (z : Loc α) (h : Valid z.root) : ∃ t, removeAt z = some t ∧ Valid t := by
  obtain ⟨t, h1, h2, _⟩ := removeAt_ok z h
  exact ⟨t, h1, h2⟩

/-- **C03**, NULL safety for an insertion at any vacant link of any red-black tree: linking a fresh red
node at the hole of path `p` and calling `rb_insert_color` gives a red-black tree with that one node added. -/
theorem rb_insert_color_safe (p : Path α) (a : α) (h : Valid (zip p (Tree.nil : Tree α))) :
    ∃ t, insertColor (.node .red .nil a .nil) p = some t ∧ Valid t ∧
      ∃ l1 l2, (zip p (Tree.nil : Tree α)).inorder = l1 ++ l2 ∧ t.inorder = l1 ++ a :: l2 := by
  obtain ⟨n, h1, h2, h3, h4⟩ := zip_inv h
  obtain rfl : n = 0 := h2
  obtain ⟨t', e1, e2, e3⟩ := insertColor_ok (.node .red .nil a .nil) p 0 h1 (by simp [Tree.BH])
    (by simp [Tree.NoRR]) rfl
  refine ⟨t', e1, e2, before p, after p, ?_, ?_⟩
  · rw [inorder_zip]; simp [Tree.inorder]
  · rw [e3, inorder_zip]; simp [Tree.inorder]

/-- **C04.** `rbtree_find_cover` gives NULL exactly on the empty tree; otherwise a node `x` which either
has the greatest key ≤ `k`, or, when all keys exceed `k`, the greatest key of all. -/
theorem find_cover_spec (cmp : κ → κ → Int) (hc : IsOrder cmp) (key : α → κ) (t : Tree α) (k : κ)
    (hs : Sorted cmp key t.inorder) :
    match findCover (fun k x => cmp k (key x)) k t with
    | none => t = .nil
    | some z => z.root = t ∧ z.x ∈ t.inorder ∧
        ((cmp (key z.x) k ≤ 0 ∧ ∀ y ∈ t.inorder, cmp (key y) k ≤ 0 → cmp (key y) (key z.x) ≤ 0) ∨
         ((∀ y ∈ t.inorder, cmp k (key y) < 0) ∧ ∀ y ∈ t.inorder, cmp (key y) (key z.x) ≤ 0)) := by
  cases ht : t with
  | nil => simp [findCover, findCoverLoc]
  | node c l x r =>
    rw [← ht]
    obtain ⟨z, h1, h2, h3⟩ := findCoverLoc_ok (k := k) (root := t) (t := t) (p := []) hc rfl (by simp [ht]) hs
      (by simp [before]) (by simp [after])
    have hin : t.inorder = z.pre ++ z.x :: z.post := by rw [← h2, Loc.inorder_root]
    have hle : ∀ y ∈ z.pre ++ [z.x], cmp (key y) (key z.x) ≤ 0 := by
      unfold Sorted at hs
      rw [hin, List.pairwise_append] at hs
      intro y hy
      simp only [List.mem_append, List.mem_singleton] at hy
      rcases hy with hy | rfl
      · have := hs.2.2 y hy z.x (by simp); omega
      · rw [cmp_self hc]; omega
    simp only [findCover, h1]
    refine ⟨h2, by rw [hin]; simp, ?_⟩
    rcases h3 with ⟨h3, h4⟩ | ⟨h3, h4⟩
    · refine .inl ⟨h3, ?_⟩
      intro y hy hyk
      rw [hin] at hy
      simp only [List.mem_append, List.mem_cons] at hy
      rcases hy with hy | rfl | hy
      · exact hle y (by simp [hy])
      · exact hle _ (by simp)
      · have := (hc.anti _ _).1 (h4 y hy); omega
    · refine .inr ⟨h3, ?_⟩
      intro y hy
      rw [hin, h4] at hy
      exact hle y hy

/-- **C05.** `rbtree_iterator` on any red-black tree with distinct nodes: it terminates within `size`
callbacks, without undefined behaviour; the callback sees the nodes in order, once each, until it asks
to stop; exactly the nodes it asked to remove are gone; the tree is again a red-black tree. -/
theorem iterator_spec [DecidableEq α] {σ : Type} (cb : σ → α → Verdict × σ) (t : Tree α) (s : σ)
    (hv : Valid t) (hn : t.inorder.Nodup) :
    ∃ r, iterate cb t.size t s = some r ∧ Valid r.tree ∧
      r.tree.inorder = (specIter cb s t.inorder).1 ∧
      r.state = (specIter cb s t.inorder).2.1 ∧
      r.visited = (specIter cb s t.inorder).2.2 := by
  have h := first_ok t
  split at h
  · rename_i h1
    subst h
    exact ⟨⟨.nil, s, []⟩, rfl, hv, rfl, rfl, rfl⟩
  · rename_i z h1
    have hin : t.inorder = z.x :: z.post := by rw [← h.1, Loc.inorder_root, h.2]; rfl
    obtain ⟨r, e1, e2, e3, e4, e5⟩ := iterLoop_ok cb t.size t z s [] h.1 hv hn
      (by rw [size_eq_length, hin]; simp)
    refine ⟨r, by simpa [iterate, h1] using e1, e2, ?_, ?_, ?_⟩
    · rw [e3, h.2, hin]; rfl
    · rw [e4, hin]
    · rw [e5, hin]; rfl

/-- **C05**, distinctness of nodes comes for free on trees built by the API. -/
theorem sorted_nodup {cmp : κ → κ → Int} (hc : IsOrder cmp) {key : α → κ} {l : List α}
    (h : Sorted cmp key l) : l.Nodup := by
  unfold Sorted at h
  refine h.imp ?_
  rintro a b hab rfl
  rw [cmp_self hc] at hab; omega

/-- **C01**, `rbtree_find2` with a non-empty tree: the node returned is in the tree and `*result` is its
comparison; the result is 0 exactly when the key is present. -/
theorem find2_spec (cmp : κ → κ → Int) (hc : IsOrder cmp) (key : α → κ) (t : Tree α) (k : κ) (r0 : Int)
    (x : α) (r : Int) (hs : Sorted cmp key t.inorder)
    (h : find2 (fun k x => cmp k (key x)) k r0 none t = (some x, r)) :
    x ∈ t.inorder ∧ r = cmp k (key x) ∧ (r = 0 ↔ ∃ y ∈ t.inorder, key y = k) := by
  obtain ⟨h1, h2⟩ := find2_mem h (.inl rfl)
  have hx : x ∈ t.inorder := by
    rcases h2 with h2 | h2
    · exact h2
    · cases h2
  refine ⟨hx, h1, ?_, ?_⟩
  · intro h0
    exact ⟨x, hx, ((hc.eq_iff _ _).1 (h1 ▸ h0)).symm⟩
  · rintro ⟨y, hy, hk⟩
    -- the search path leads to y
    have key_lemma : ∀ (t : Tree α) (r0 : Int) (ln : Option α), Sorted cmp key t.inorder → y ∈ t.inorder →
        (find2 (fun k x => cmp k (key x)) k r0 ln t).2 = 0 := by
      intro t
      induction t with
      | nil => simp [Tree.inorder]
      | node c l z rr ih1 ih2 =>
        intro r0 ln hs hy
        obtain ⟨s1, s2, s3, s4⟩ := sorted_node hs
        simp only [Tree.inorder, List.mem_append, List.mem_cons] at hy
        unfold find2
        split
        · rename_i hlt
          rcases hy with hy | rfl | hy
          · exact ih1 _ _ s1 hy
          · rw [hk, cmp_self hc] at hlt; omega
          · have := (hc.anti _ _).1 (s4 y hy); rw [hk] at this; omega
        · split
          · rename_i hge hgt
            rcases hy with hy | rfl | hy
            · have := s3 y hy; rw [hk] at this; omega
            · rw [hk, cmp_self hc] at hgt; omega
            · exact ih2 _ _ s2 hy
          · simp only; omega
    have := key_lemma t r0 none hs hy
    rw [h] at this; exact this

/-- **C01**, `rb_replace_node` changes only the identity of one node: same shape, colours and order. -/
theorem replace_node_spec (z : Loc α) (y : α) (h : Valid z.root) :
    Valid (replaceAt z y) ∧ ∃ l1 l2, z.root.inorder = l1 ++ z.x :: l2 ∧ (replaceAt z y).inorder = l1 ++ y :: l2 := by
  obtain ⟨n, h1, h2, h3, h4⟩ := zip_inv h
  refine ⟨zip_valid h1 ?_ ?_ ?_, z.pre, z.post, Loc.inorder_root z, ?_⟩
  · revert h2; unfold Loc.tree; cases z.c <;> exact id
  · exact h3
  · revert h4; unfold Loc.tree; cases z.c <;> exact id
  · simp [replaceAt, inorder_zip, Tree.inorder, Loc.pre, Loc.post]

/-! ### The hypotheses are met by concrete non-trivial cases -/

/-- comparison of mathematical integers (cf. rbtree_int_cmp without overflow) -/
def intCmp (a b : Int) : Int := a - b

theorem intCmp_order : IsOrder intCmp := by
  constructor <;> intros <;> simp only [intCmp] at * <;> omega

/-- a concrete history with rotations, re-colouring, duplicate insert, removals of inner nodes -/
def demoOps : List (Op Int Int) :=
  [.insert 5, .insert 3, .insert 8, .insert 1, .insert 2, .insert 9, .insert 10, .insert 5,
   .find 2, .remove 3, .remove 5, .find 5, .remove 42, .remove 1]

example : (runTree intCmp id Tree.nil demoOps).map (fun r => r.1.inorder) = some [2, 8, 9, 10] := by
  decide
example : IsOrder intCmp := intCmp_order

/-- a concrete valid tree of five nodes and a location in it -/
def demoTree : Tree Int :=
  .node .black (.node .red (.node .black .nil 1 .nil) 2 (.node .black .nil 3 .nil)) 4 (.node .black .nil 5 .nil)

example : Valid demoTree := ⟨rfl, by simp [demoTree, Tree.NoRR], 2, by simp [demoTree, Tree.BH]⟩
example : demoTree.inorder.Nodup := by decide
example : Sorted intCmp id demoTree.inorder := by simp [Sorted, demoTree, Tree.inorder, intCmp]
example : ((findCover (fun k x => intCmp k x) 0 demoTree).map Loc.x) = some 5 := by decide
example : ((findCover (fun k x => intCmp k x) 4 demoTree).map Loc.x) = some 4 := by decide
example : ((first demoTree).bind next).map Loc.x = some 2 := by decide
example : Valid (zip [.left .black (4 : Int) .nil] (Tree.nil : Tree Int)) :=
  ⟨rfl, by simp [zip, Frame.plug, Tree.NoRR], 1, by simp [zip, Frame.plug, Tree.BH]⟩
example : ((iterate (fun (s : Nat) (x : Int) => if x % 2 = 1 then (.removeCont, s+1) else (.cont, s+1))
    5 demoTree 0).map (fun r => (r.tree.inorder, r.visited))) = some ([2, 4], [1, 2, 3, 4, 5]) := by decide
example : (find2 (fun k x => intCmp k x) 3 7 none demoTree) = (some 3, 0) := by decide
example (z : Loc Int) (hz : first demoTree = some z) : Valid z.root := by
  have h := first_ok demoTree
  rw [hz] at h
  rw [h.1]; exact ⟨rfl, by simp [demoTree, Tree.NoRR], 2, by simp [demoTree, Tree.BH]⟩

end Kasync.RB
