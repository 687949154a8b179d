import Verif.RB.HeapNav

/-!
# `rbtree_insert`, `rbtree_remove`, `rb_replace_node` and the iterator on the heap
-/

namespace Kasync.RBHeap
open Kasync.RB (Color Tree Frame Path zip Loc)

variable {δ κ : Type} {h : Heap δ} {p : Path (Ptr × δ)}

/-! ## Rebalancing does not look at the data -/

/-- a function applied to every payload -/
def mapT (f : Ptr × δ → Ptr × δ) : Tree (Ptr × δ) → Tree (Ptr × δ)
  | .nil => .nil
  | .node c l x r => .node c (mapT f l) (f x) (mapT f r)

def mapF (f : Ptr × δ → Ptr × δ) : Frame (Ptr × δ) → Frame (Ptr × δ)
  | .left c x r => .left c (f x) (mapT f r)
  | .right c l x => .right c (mapT f l) (f x)

theorem mapT_zip (f : Ptr × δ → Ptr × δ) (p : Path (Ptr × δ)) : ∀ t, mapT f (zip p t) = zip (p.map (mapF f)) (mapT f t) := by
  induction p with
  | nil => intro t; rfl
  | cons g p ih => intro t; cases g <;> simp [zip, ih, Frame.plug, mapF, mapT]

theorem mapT_setBlack (f : Ptr × δ → Ptr × δ) (t : Tree (Ptr × δ)) : mapT f t.setBlack = (mapT f t).setBlack := by cases t <;> rfl

theorem mapT_isRed (f : Ptr × δ → Ptr × δ) (t : Tree (Ptr × δ)) : (mapT f t).isRed = t.isRed := by
  cases t with
  | nil => rfl
  | node c l x r => cases c <;> rfl

theorem insertColor_map (f : Ptr × δ → Ptr × δ) (n : Tree (Ptr × δ)) (p : Path (Ptr × δ)) :
    RB.insertColor (mapT f n) (p.map (mapF f)) = (RB.insertColor n p).map (mapT f) := by
  fun_induction RB.insertColor n p <;>
    simp_all [RB.insertColor, mapF, mapT, mapT_zip, mapT_setBlack, mapT_isRed]

/-- the payload after the client has stored `d` in the node at `a` -/
def setD (a : Ptr) (d : δ) (y : Ptr × δ) : Ptr × δ := if y.1 = a then (y.1, d) else y

theorem setD_fst (a : Ptr) (d : δ) (y : Ptr × δ) : (setD a d y).1 = y.1 := by unfold setD; split <;> rfl

theorem mapT_setD_of (a : Ptr) (d : δ) (t : Tree (Ptr × δ)) (ht : a ∉ addrs t) : mapT (setD a d) t = t := by
  induction t with
  | nil => rfl
  | node c l x r ihl ihr =>
    simp only [addrs_node, List.mem_append, List.mem_cons, not_or] at ht
    simp only [mapT, ihl ht.1, ihr ht.2.2]
    simp [setD, Ne.symm ht.2.1]

theorem mapP_setD_of (a : Ptr) (d : δ) (p : Path (Ptr × δ)) (hp : a ∉ pathAddrs p) : p.map (mapF (setD a d)) = p := by
  induction p with
  | nil => rfl
  | cons g p ih =>
    cases g <;> simp only [pathAddrs, List.mem_append, List.mem_cons, not_or] at hp <;>
      simp [mapF, ih hp.2.2, mapT_setD_of a d _ hp.2.1, setD, Ne.symm hp.1]

theorem ptr_mapT (a : Ptr) (d : δ) (t : Tree (Ptr × δ)) : ptr (mapT (setD a d) t) = ptr t := by
  cases t with
  | nil => rfl
  | node c l x r => exact setD_fst a d x

theorem addrs_mapT (a : Ptr) (d : δ) (t : Tree (Ptr × δ)) : addrs (mapT (setD a d) t) = addrs t := by
  induction t with
  | nil => rfl
  | node c l x r ihl ihr => simp only [mapT, addrs_node, ihl, ihr, setD_fst]

/-- `node->data = d` by the client -/
def storeData (h : Heap δ) (a : Ptr) (d : δ) : Option (Heap δ) := h.modify a (fun n => { n with data := d })

theorem Rep.store {a : Ptr} {d : δ} {h' : Heap δ} {n : Node δ} (hm : h.mem a = some n) (hm' : h'.mem a = some { n with data := d })
    (ho : ∀ b, b ≠ a → h'.mem b = h.mem b) (t : Tree (Ptr × δ)) : ∀ par, Rep h par t → Rep h' par (mapT (setD a d) t) := by
  induction t with
  | nil => intros; trivial
  | node c l x r ihl ihr =>
    intro par hr
    refine ⟨?_, ?_, ?_⟩
    · obtain ⟨h0, h1, w, h2, h3, h4⟩ := hr.1
      rw [ptr_mapT, ptr_mapT, setD_fst]
      refine ⟨h0, h1, w, ?_, h3, h4⟩
      by_cases e : x.1 = a
      · rw [e, hm] at h2
        rw [e, hm']
        simp only [Option.some.injEq] at h2
        subst h2
        simp [setD, e]
      · rw [ho _ e, h2]; simp [setD, e]
    · rw [setD_fst]; exact ihl _ hr.2.1
    · rw [setD_fst]; exact ihr _ hr.2.2

theorem rep_mem {t : Tree (Ptr × δ)} : ∀ {par : Ptr}, Rep h par t → ∀ x ∈ t.inorder, ∃ w l r, h.load x.1 = some ⟨w, l, r, x.2⟩ ∧ h.mem x.1 = some ⟨w, l, r, x.2⟩ := by
  induction t with
  | nil => intro par _ x hx; simp [Tree.inorder] at hx
  | node c l y r ihl ihr =>
    intro par hr x hx
    simp only [Tree.inorder, List.mem_append, List.mem_cons] at hx
    rcases hx with hx | rfl | hx
    · exact ihl hr.2.1 x hx
    · obtain ⟨h0, _, w, h2, _, _⟩ := hr.1
      exact ⟨w, _, _, by unfold Heap.load; rw [if_neg h0, h2], h2⟩
    · exact ihr hr.2.2 x hx

theorem Is.store {t : Tree (Ptr × δ)} {a : Ptr} (d : δ) (hi : Is h t) (ha : a ∈ addrs t) :
    ∃ h', storeData h a d = some h' ∧ Is h' (mapT (setD a d) t) ∧ ∀ b, b ≠ a → h'.mem b = h.mem b := by
  obtain ⟨x, hx, rfl⟩ := List.mem_map.1 ha
  obtain ⟨w, l, r, e1, e2⟩ := rep_mem hi.2.1 x hx
  refine ⟨_, modify_some e1 _, ⟨?_, ?_, ?_⟩, (off_set _ _ _).2⟩
  · rw [ptr_mapT]; exact hi.1
  · exact hi.2.1.store e2 (set_mem _ _ _) (off_set _ _ _).2
  · rw [addrs_mapT]; exact hi.2.2

/-! ## Insertion -/

/-- what `malloc` may return -/
def Fresh (h : Heap δ) (a : Ptr) : Prop := a ≠ 0 ∧ Aligned a ∧ h.mem a = none

theorem rep_not_fresh {t : Tree (Ptr × δ)} {a par : Ptr} (hr : Rep h par t) (ha : h.mem a = none) : a ∉ addrs t := by
  intro hm
  obtain ⟨x, hx, rfl⟩ := List.mem_map.1 hm
  obtain ⟨w, l, r, _, e2⟩ := rep_mem hr x hx
  rw [ha] at e2; cases e2

theorem Ctx.write {hole : Ptr} (hc : Ctx h hole p) (hn : (pathAddrs p).Nodup) (new : Ptr) :
    ∃ h', (linkOf p).write h new = some h' ∧ Ctx h' new p ∧ ∀ b, b ∉ pathAddrs p → h'.mem b = h.mem b := by
  cases p with
  | nil => exact ⟨_, rfl, rfl, fun _ _ => rfl⟩
  | cons f p =>
    cases f with
    | left c x r =>
      simp only [pathAddrs, List.mem_cons, List.mem_append, List.nodup_cons, List.nodup_append] at hn
      obtain ⟨h', e1, e2, e3⟩ := hc.1.setLeft new
      refine ⟨h', e1, ⟨e2, ?_, ?_⟩, ?_⟩
      · exact hc.2.1.frame (fun b hb => e3.2 b (by grind))
      · exact hc.2.2.frame e3.1 (fun b hb => e3.2 b (by grind))
      · intro b hb; exact e3.2 b (by simp only [pathAddrs, List.mem_cons, not_or] at hb; exact hb.1)
    | right c l x =>
      simp only [pathAddrs, List.mem_cons, List.mem_append, List.nodup_cons, List.nodup_append] at hn
      obtain ⟨h', e1, e2, e3⟩ := hc.1.setRight new
      refine ⟨h', e1, ⟨e2, ?_, ?_⟩, ?_⟩
      · exact hc.2.1.frame (fun b hb => e3.2 b (by grind))
      · exact hc.2.2.frame e3.1 (fun b hb => e3.2 b (by grind))
      · intro b hb; exact e3.2 b (by simp only [pathAddrs, List.mem_cons, not_or] at hb; exact hb.1)

/-- From a heap that represents `t` to one that represents `t'`, which has the additional node at `a`; nothing else touched. -/
structure Ins (h : Heap δ) (t : Tree (Ptr × δ)) (a : Ptr) (h' : Heap δ) (t' : Tree (Ptr × δ)) : Prop where
  is : Is h' t'
  off : ∀ b, b ∉ addrs t → b ≠ a → h'.mem b = h.mem b
  same : ∀ b, b ∈ addrs t' ↔ b ∈ addrs t ∨ b = a

/-- `malloc` and `rb_link_node` -/
theorem link_ok {a : Ptr} (junk : Node δ) (hi : Is h (zip p .nil)) (hf : Fresh h a) :
    ∃ h', linkNode (h.set a junk) a (top p) (linkOf p) = some h' ∧ Ins h (zip p .nil) a h' (zip p (.node .red .nil (a, junk.data) .nil)) := by
  obtain ⟨hctx, _, hn⟩ := hi.z
  have ha : a ∉ pathAddrs p := fun e => rep_not_fresh hi.2.1 hf.2.2 ((mem_addrs_zip a p .nil).2 (Or.inl e))
  have hl : (h.set a junk).load a = some junk := by unfold Heap.load; rw [if_neg hf.1, set_mem]
  have e1 := modify_some hl (fun m => { m with pc := top p, left := 0, right := 0 })
  have o1 := off_set (h.set a junk) a { junk with pc := top p, left := 0, right := 0 }
  have o0 := off_set h a junk
  have m1 := set_mem (h.set a junk) a { junk with pc := top p, left := 0, right := 0 }
  generalize (h.set a junk).set a { junk with pc := top p, left := 0, right := 0 } = h1 at e1 o1 m1
  have hpa := top_aligned hctx
  have hctx1 : Ctx h1 0 p := hctx.frame (by rw [o1.1, o0.1]) (fun b hb => by rw [o1.2 b (by grind), o0.2 b (by grind)])
  simp only [addrs_nil, List.append_nil] at hn
  obtain ⟨h2, e2, c2, o2⟩ := hctx1.write hn a
  refine ⟨h2, ?_, ?_⟩
  · unfold linkNode
    simp only [Option.bind_eq_bind, e1, Option.bind_some, e2]
  · refine ⟨(isZ_iff _ _ _).1 ⟨c2, ⟨⟨hf.1, hf.2.1, top p, ?_, parent_aligned hpa, color_aligned hpa⟩, trivial, trivial⟩, ?_⟩, ?_, ?_⟩
    · rw [o2 _ ha, m1]; rfl
    · simp only [addrs_node, addrs_nil, List.nil_append, List.nodup_append]
      exact ⟨hn, by simp, by intro b hb c hc; simp only [List.mem_singleton] at hc; subst hc; exact fun e => ha (e ▸ hb)⟩
    · intro b hb hba
      simp only [mem_addrs_zip, not_or] at hb
      rw [o2 b hb.1, o1.2 b hba, o0.2 b hba]
    · intro b; simp [mem_addrs_zip, addrs_node, addrs_nil]

/-- **`rbtree_insert` on the heap**, the client storing the data if the node is new. -/
theorem insert_refines (cmp : κ → δ → Int) (k : κ) {t : Tree (Ptr × δ)} {a : Ptr} (junk : Node δ) (d : δ) {res : RB.InsertResult (Ptr × δ)} (hi : Is h t) (hf : Fresh h a)
    (he : RB.insert (onData cmp) k (a, d) t = some res) :
    (res.isNew = false ∧ insert cmp k a junk h = some (h, res.node.1, false) ∧ res.tree = t) ∨
    (res.isNew = true ∧ res.node = (a, d) ∧ ∃ h1 h2, insert cmp k a junk h = some (h1, a, true) ∧ storeData h1 a d = some h2 ∧ Ins h t a h2 res.tree) := by
  unfold RB.insert at he
  rw [insertLoc_descend] at he
  have hs : insertSearch cmp k h .root 0 = _ := insertSearch_refines (h := h) cmp k t [] (by exact hi)
  cases hd : descend (onData cmp) k t [] with
  | inl x =>
    rw [hd] at he hs
    simp only [Option.some.injEq] at he
    subst he
    exact Or.inl ⟨rfl, by unfold insert; simp only [Option.bind_eq_bind, hs, Option.bind_some], rfl⟩
  | inr q =>
    rw [hd] at he hs
    simp only at he hs
    have hz := descend_zip _ _ _ _ _ hd
    have hz' : zip q .nil = t := hz
    split at he
    · cases he
    · rename_i t' hc
      simp only [Option.some.injEq] at he
      subst he
      have hi' : Is h (zip q .nil) := by rw [hz']; exact hi
      obtain ⟨h1, e1, i1⟩ := link_ok junk hi' hf
      have ha : a ∉ pathAddrs q := fun e => rep_not_fresh hi'.2.1 hf.2.2 ((mem_addrs_zip a q .nil).2 (Or.inl e))
      have hmap := insertColor_map (setD a d) (.node .red .nil (a, junk.data) .nil) q
      rw [mapP_setD_of a d q ha] at hmap
      have hmn : mapT (setD a d) (.node .red .nil (a, junk.data) .nil) = .node .red .nil (a, d) .nil := by simp [mapT, setD]
      rw [hmn, hc] at hmap
      cases hj : RB.insertColor (.node .red .nil (a, junk.data) .nil) q with
      | none => rw [hj] at hmap; cases hmap
      | some tj =>
        rw [hj] at hmap
        simp only [Option.map_some, Option.some.injEq] at hmap
        obtain ⟨h2, e2, t2⟩ := insertColor_refines q.length q h1 .nil (a, junk.data) .nil tj (Nat.le_refl _) i1.is hj
        have hmem : a ∈ addrs tj := (t2.same a).2 ((i1.same a).2 (Or.inr rfl))
        obtain ⟨h3, e3, i3, o3⟩ := t2.is.store d hmem
        refine Or.inr ⟨rfl, rfl, h2, h3, ?_, e3, ⟨by rw [hmap]; exact i3, ?_, ?_⟩⟩
        · unfold insert
          simp only [Option.bind_eq_bind, hs, Option.bind_some, e1, e2]
        · intro b hb hba
          rw [← hz'] at hb
          rw [o3 b hba, t2.off b (fun e => ((i1.same b).1 e).elim hb hba), i1.off b hb hba]
        · intro b
          rw [hmap, addrs_mapT, t2.same, i1.same, hz']

/-! ## Removal -/

/-- **`rbtree_remove` on the heap**: afterwards the node is freed. -/
theorem remove_refines {z : Loc (Ptr × δ)} {t' : Tree (Ptr × δ)} (hi : Is h z.root) (he : RB.removeAt z = some t') :
    ∃ h', remove h z.x.1 = some h' ∧ Cut h z.root z.x.1 h' t' ∧ h'.mem z.x.1 = none := by
  obtain ⟨h1, e1, c1⟩ := erase_refines (p := z.path) (h := h) (c := z.c) (l := z.l) (r := z.r) (x := z.x) (by exact hi) (by exact he)
  have hx : z.x.1 ∉ addrs t' := fun e => ((c1.same _).1 e).2 rfl
  have hne : ∀ b, b ∈ addrs t' → b ≠ z.x.1 := fun b hb e => hx (e ▸ hb)
  refine ⟨{ h1 with mem := fun q => if q = z.x.1 then none else h1.mem q }, by unfold remove; simp only [Option.bind_eq_bind, e1, Option.bind_some], ⟨⟨c1.is.1, ?_, c1.is.2.2⟩, ?_, c1.same⟩, by simp⟩
  · refine c1.is.2.1.frame (fun b hb => ?_)
    simp [hne b hb]
  · intro b hb
    have : b ≠ z.x.1 := by
      intro e; subst e; exact hb ((mem_addrs_zip _ _ _).2 (Or.inr (by unfold Loc.tree; rw [addrs_node]; simp)))
    simp only [this, if_false]
    exact c1.off b hb

end Kasync.RBHeap
