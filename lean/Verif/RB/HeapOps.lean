import Verif.RB.HeapRep

/-!
# Recolouring and rotations on the heap
-/

namespace Kasync.RBHeap
open Kasync.RB (Color Tree Frame Path zip)

variable {δ κ : Type} {h : Heap δ} {p : Path (Ptr × δ)}

theorem mem_addrs_zip (b : Ptr) (p : Path (Ptr × δ)) : ∀ t, b ∈ addrs (zip p t) ↔ b ∈ pathAddrs p ∨ b ∈ addrs t := by
  induction p with
  | nil => intro t; simp [zip, pathAddrs]
  | cons f p ih =>
    intro t
    cases f with
    | left c x r => rw [zip, ih, Frame.plug, addrs_node]; simp only [pathAddrs, List.mem_append, List.mem_cons]; grind
    | right c l x => rw [zip, ih, Frame.plug, addrs_node]; simp only [pathAddrs, List.mem_append, List.mem_cons]; grind

/-- From a heap that represents `t` to one that represents `t'`, with the same nodes, and nothing else touched. -/
structure To (h : Heap δ) (t : Tree (Ptr × δ)) (h' : Heap δ) (t' : Tree (Ptr × δ)) : Prop where
  is : Is h' t'
  off : ∀ b, b ∉ addrs t → h'.mem b = h.mem b
  same : ∀ b, b ∈ addrs t' ↔ b ∈ addrs t

theorem To.refl {t : Tree (Ptr × δ)} (hi : Is h t) : To h t h t := ⟨hi, fun _ _ => rfl, fun _ => Iff.rfl⟩

theorem To.trans {h' h'' : Heap δ} {t t' t'' : Tree (Ptr × δ)} (h1 : To h t h' t') (h2 : To h' t' h'' t'') : To h t h'' t'' :=
  ⟨h2.is, fun b hb => (h2.off b (fun e => hb ((h1.same b).1 e))).trans (h1.off b hb), fun b => (h2.same b).trans (h1.same b)⟩

theorem to_of_isZ {h' : Heap δ} {t t' : Tree (Ptr × δ)} (hi : IsZ h' p t') (hoff : ∀ b, b ∉ pathAddrs p → b ∉ addrs t → h'.mem b = h.mem b)
    (hs : ∀ b, b ∈ addrs t' ↔ b ∈ addrs t) : To h (zip p t) h' (zip p t') := by
  refine ⟨(isZ_iff _ _ _).1 hi, fun b hb => ?_, fun b => ?_⟩
  · rw [mem_addrs_zip] at hb; exact hoff b (fun e => hb (Or.inl e)) (fun e => hb (Or.inr e))
  · rw [mem_addrs_zip, mem_addrs_zip, hs]

theorem Is.z {t : Tree (Ptr × δ)} (hi : Is h (zip p t)) : IsZ h p t := (isZ_iff _ _ _).2 hi

/-- what is found at a location -/
theorem Is.load {c : Color} {l r : Tree (Ptr × δ)} {x : Ptr × δ} (hi : Is h (zip p (.node c l x r))) :
    ∃ w, h.load x.1 = some ⟨w, ptr l, ptr r, x.2⟩ ∧ rbParent w = top p ∧ rbColor w = c := hi.z.2.1.1.load

theorem Is.isRed {t : Tree (Ptr × δ)} (hi : Is h (zip p t)) : isRed h (ptr t) = some t.isRed := by
  cases t with
  | nil => simp [RBHeap.isRed, ptr, Tree.isRed]
  | node c l x r =>
    obtain ⟨w, h1, h2, h3⟩ := hi.load
    unfold RBHeap.isRed
    rw [if_neg (by exact hi.z.2.1.1.1)]
    simp only [ptr, h1, Option.map_some, h3]
    cases c <;> simp [Tree.isRed]

/-- changing one cell without moving anything -/
theorem recolor {c c' : Color} {l r : Tree (Ptr × δ)} {x : Ptr × δ} {h' : Heap δ} (hi : Is h (zip p (.node c l x r)))
    (hc : Cell h' x.1 (top p) c' (ptr l) (ptr r) x.2) (ho : Off h h' x.1) :
    To h (zip p (.node c l x r)) h' (zip p (.node c' l x r)) := by
  obtain ⟨h1, h2, h3⟩ := hi.z
  have h3' := h3
  rw [addrs_node] at h3'
  simp only [List.nodup_append, List.nodup_cons, List.mem_append, List.mem_cons] at h3'
  refine to_of_isZ ⟨?_, ⟨hc, ?_, ?_⟩, ?_⟩ (fun b _ hb => ho.2 b ?_) (fun b => by simp only [addrs_node])
  · exact h1.frame ho.1 (fun b hb => ho.2 b (by grind))
  · exact h2.2.1.frame (fun b hb => ho.2 b (by grind))
  · exact h2.2.2.frame (fun b hb => ho.2 b (by grind))
  · rw [addrs_node] at h3 ⊢; exact h3
  · rw [addrs_node] at hb; grind

theorem Is.setBlack {c : Color} {l r : Tree (Ptr × δ)} {x : Ptr × δ} (hi : Is h (zip p (.node c l x r))) :
    ∃ h', setBlack h x.1 = some h' ∧ To h (zip p (.node c l x r)) h' (zip p (.node .black l x r)) := by
  obtain ⟨h', e1, e2, e3⟩ := hi.z.2.1.1.setBlack
  exact ⟨h', e1, recolor hi e2 e3⟩

theorem Is.setRed {c : Color} {l r : Tree (Ptr × δ)} {x : Ptr × δ} (hi : Is h (zip p (.node c l x r))) :
    ∃ h', setRed h x.1 = some h' ∧ To h (zip p (.node c l x r)) h' (zip p (.node .red l x r)) := by
  obtain ⟨h', e1, e2, e3⟩ := hi.z.2.1.1.setRed
  exact ⟨h', e1, recolor hi e2 e3⟩

theorem Is.setColor {c : Color} {l r : Tree (Ptr × δ)} {x : Ptr × δ} (hi : Is h (zip p (.node c l x r))) (c' : Color) :
    ∃ h', setColor h x.1 c' = some h' ∧ To h (zip p (.node c l x r)) h' (zip p (.node c' l x r)) := by
  obtain ⟨h', e1, e2, e3⟩ := hi.z.2.1.1.setColor c'
  exact ⟨h', e1, recolor hi e2 e3⟩

theorem top_aligned {hole : Ptr} (hc : Ctx h hole p) : Aligned (top p) := by
  cases p with
  | nil => exact aligned_zero
  | cons f p => cases f with
    | left _ _ _ => exact hc.1.2.1
    | right _ _ _ => exact hc.1.2.1

set_option maxHeartbeats 1000000 in
/-- `__rb_rotate_left` -/
theorem Is.rotateLeft {cx cy : Color} {a b d : Tree (Ptr × δ)} {x y : Ptr × δ} (hi : Is h (zip p (.node cx a x (.node cy b y d)))) :
    ∃ h', rotateLeft h x.1 = some h' ∧ To h (zip p (.node cx a x (.node cy b y d))) h' (zip p (.node cy (.node cx a x b) y d)) := by
  obtain ⟨hctx, ⟨hx, ha, hy, hb, hd⟩, hn⟩ := hi.z
  have hn' := hn
  simp only [addrs_node, List.nodup_append, List.nodup_cons, List.mem_append, List.mem_cons] at hn'
  have hpa := top_aligned hctx
  obtain ⟨wx, lx, px, _⟩ := hx.load
  obtain ⟨wy, ly, py, _⟩ := hy.load
  obtain ⟨h1, e1, c1, o1⟩ := hx.setRight (ptr b)
  have hb1 : Rep h1 y.1 b := hb.frame (fun q hq => o1.2 q (by grind))
  obtain ⟨h2, e2, c2, r2, o2⟩ := hb1.reparent (by grind) hx.2.1
  have hy2 : Cell h2 y.1 x.1 cy (ptr b) (ptr d) y.2 := hy.frame (by rw [o2 _ (by grind), o1.2 _ (by grind)])
  obtain ⟨h3, e3, c3, o3⟩ := hy2.setLeft x.1
  obtain ⟨h4, e4, c4, o4⟩ := c3.setParent hpa
  have hctx4 : Ctx h4 x.1 p := hctx.frame (by rw [o4.1, o3.1, r2, o1.1])
    (fun q hq => by rw [o4.2 q (by grind), o3.2 q (by grind), o2 q (by grind), o1.2 q (by grind)])
  obtain ⟨h5, e5, _, c5, o5⟩ := hctx4.relink hx.1 (by grind) (by grind) y.1
  have hx5 : Cell h5 x.1 (top p) cx (ptr a) (ptr b) x.2 := c1.frame (by
    rw [o5 _ (by grind), o4.2 _ (by grind), o3.2 _ (by grind), o2 _ (by grind)])
  obtain ⟨h6, e6, c6, o6⟩ := hx5.setParent hy.2.1
  refine ⟨h6, ?_, ?_⟩
  · simp only [RBHeap.rotateLeft, lx, ptr]
    simp only [Option.bind_eq_bind, Option.bind_some, ly, px, e1, e2, e3, e4, e5, e6]
  · refine to_of_isZ ⟨?_, ⟨?_, ⟨c6, ?_, ?_⟩, ?_⟩, ?_⟩ ?_ ?_
    · exact c5.frame o6.1 (fun q hq => o6.2 q (by grind))
    · exact c4.frame (by rw [o6.2 _ (by grind), o5 _ (by grind)])
    · exact ha.frame (fun q hq => by rw [o6.2 q (by grind), o5 q (by grind), o4.2 q (by grind), o3.2 q (by grind), o2 q (by grind), o1.2 q (by grind)])
    · exact c2.frame (fun q hq => by rw [o6.2 q (by grind), o5 q (by grind), o4.2 q (by grind), o3.2 q (by grind)])
    · exact hd.frame (fun q hq => by rw [o6.2 q (by grind), o5 q (by grind), o4.2 q (by grind), o3.2 q (by grind), o2 q (by grind), o1.2 q (by grind)])
    · have : addrs (.node cy (.node cx a x b) y d) = addrs (.node cx a x (.node cy b y d)) := by simp [addrs_node]
      rw [this]; exact hn
    · intro q hq1 hq2
      simp only [addrs_node, List.mem_append, List.mem_cons, not_or] at hq2
      rw [o6.2 q (by grind), o5 q (by grind), o4.2 q (by grind), o3.2 q (by grind), o2 q (by grind), o1.2 q (by grind)]
    · intro q; simp [addrs_node]

set_option maxHeartbeats 1000000 in
/-- `__rb_rotate_right` -/
theorem Is.rotateRight {cx cy : Color} {a b d : Tree (Ptr × δ)} {x y : Ptr × δ} (hi : Is h (zip p (.node cx (.node cy a y b) x d))) :
    ∃ h', rotateRight h x.1 = some h' ∧ To h (zip p (.node cx (.node cy a y b) x d)) h' (zip p (.node cy a y (.node cx b x d))) := by
  obtain ⟨hctx, ⟨hx, ⟨hy, ha, hb⟩, hd⟩, hn⟩ := hi.z
  have hn' := hn
  simp only [addrs_node, List.nodup_append, List.nodup_cons, List.mem_append, List.mem_cons] at hn'
  have hpa := top_aligned hctx
  obtain ⟨wx, lx, px, _⟩ := hx.load
  obtain ⟨wy, ly, py, _⟩ := hy.load
  obtain ⟨h1, e1, c1, o1⟩ := hx.setLeft (ptr b)
  have hb1 : Rep h1 y.1 b := hb.frame (fun q hq => o1.2 q (by grind))
  obtain ⟨h2, e2, c2, r2, o2⟩ := hb1.reparent (by grind) hx.2.1
  have hy2 : Cell h2 y.1 x.1 cy (ptr a) (ptr b) y.2 := hy.frame (by rw [o2 _ (by grind), o1.2 _ (by grind)])
  obtain ⟨h3, e3, c3, o3⟩ := hy2.setRight x.1
  obtain ⟨h4, e4, c4, o4⟩ := c3.setParent hpa
  have hctx4 : Ctx h4 x.1 p := hctx.frame (by rw [o4.1, o3.1, r2, o1.1])
    (fun q hq => by rw [o4.2 q (by grind), o3.2 q (by grind), o2 q (by grind), o1.2 q (by grind)])
  obtain ⟨h5, _, e5, c5, o5⟩ := hctx4.relink hx.1 (by grind) (by grind) y.1
  have hx5 : Cell h5 x.1 (top p) cx (ptr b) (ptr d) x.2 := c1.frame (by
    rw [o5 _ (by grind), o4.2 _ (by grind), o3.2 _ (by grind), o2 _ (by grind)])
  obtain ⟨h6, e6, c6, o6⟩ := hx5.setParent hy.2.1
  refine ⟨h6, ?_, ?_⟩
  · simp only [RBHeap.rotateRight, lx, ptr]
    simp only [Option.bind_eq_bind, Option.bind_some, ly, px, e1, e2, e3, e4, e5, e6]
  · refine to_of_isZ ⟨?_, ⟨?_, ?_, ⟨c6, ?_, ?_⟩⟩, ?_⟩ ?_ ?_
    · exact c5.frame o6.1 (fun q hq => o6.2 q (by grind))
    · exact c4.frame (by rw [o6.2 _ (by grind), o5 _ (by grind)])
    · exact ha.frame (fun q hq => by rw [o6.2 q (by grind), o5 q (by grind), o4.2 q (by grind), o3.2 q (by grind), o2 q (by grind), o1.2 q (by grind)])
    · exact c2.frame (fun q hq => by rw [o6.2 q (by grind), o5 q (by grind), o4.2 q (by grind), o3.2 q (by grind)])
    · exact hd.frame (fun q hq => by rw [o6.2 q (by grind), o5 q (by grind), o4.2 q (by grind), o3.2 q (by grind), o2 q (by grind), o1.2 q (by grind)])
    · have : addrs (.node cy a y (.node cx b x d)) = addrs (.node cx (.node cy a y b) x d) := by simp [addrs_node]
      rw [this]; exact hn
    · intro q hq1 hq2
      simp only [addrs_node, List.mem_append, List.mem_cons, not_or] at hq2
      rw [o6.2 q (by grind), o5 q (by grind), o4.2 q (by grind), o3.2 q (by grind), o2 q (by grind), o1.2 q (by grind)]
    · intro q; simp [addrs_node]

end Kasync.RBHeap
