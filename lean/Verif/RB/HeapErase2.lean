import Verif.RB.HeapErase
import Verif.RB.Lemmas

/-!
# `__rb_erase_color` and `rb_erase` on the heap
-/

namespace Kasync.RBHeap
open Kasync.RB (Color Tree Frame Path zip EraseStep)

variable {δ κ : Type} {h : Heap δ} {p : Path (Ptr × δ)}

theorem root_mem_path (p : Path (Ptr × δ)) : ∀ (f : Frame (Ptr × δ)) (n : Tree (Ptr × δ)), ptr (zip (f :: p) n) ∈ pathAddrs (f :: p) := by
  induction p with
  | nil => intro f n; cases f <;> simp [zip, Frame.plug, ptr, pathAddrs]
  | cons g p ih =>
    intro f n
    have := ih g (f.plug n)
    cases f <;> (simp only [pathAddrs, zip] at this ⊢; simp only [List.mem_cons, List.mem_append]; exact Or.inr (Or.inr this))

/-- the location is not the root if there is something above it -/
theorem root_ne {f : Frame (Ptr × δ)} {n : Tree (Ptr × δ)} (hi : Is h (zip (f :: p) n)) : ptr n ≠ h.root := by
  rw [hi.1]
  have hm := root_mem_path p f n
  have hn := hi.nodup
  have h0 : ptr (zip (f :: p) n) ≠ 0 := (hi.2.1.ne_zero _ ((mem_addrs_zip _ _ _).2 (Or.inl hm))).1
  refine ptr_ne_of_mem h0 ?_
  intro e
  exact (List.nodup_append.1 hn).2.2 _ hm _ e rfl

theorem eraseColor_red {n : Tree (Ptr × δ)} (hi : Is h (zip p n)) (hr : n.isRed = true) (q : Ptr) :
    ∃ h', eraseColor h (ptr n) q = some h' ∧ To h (zip p n) h' (zip p n.setBlack) := by
  obtain ⟨h', e1, e2⟩ := hi.setBlackIf
  refine ⟨h', ?_, e2⟩
  rw [eraseColor]
  simp only [Option.bind_eq_bind, hi.isRed, Option.bind_some, hr, Bool.true_eq_false, false_and, if_false, e1]

theorem eraseColor_top {n : Tree (Ptr × δ)} (hi : Is h n) (q : Ptr) :
    ∃ h', eraseColor h (ptr n) q = some h' ∧ To h n h' n.setBlack := by
  obtain ⟨h', e1, e2⟩ := Is.setBlackIf (p := []) (h := h) (by exact hi)
  refine ⟨h', ?_, e2⟩
  have hr := Is.isRed (p := []) (h := h) (t := n) (by exact hi)
  rw [eraseColor]
  simp only [Option.bind_eq_bind, hr, Option.bind_some, hi.1, ne_eq, not_true, and_false, if_false, e1]

/-- one pass of the loop -/
theorem eraseColor_pass {f : Frame (Ptr × δ)} {n : Tree (Ptr × δ)} (hi : Is h (zip (f :: p) n)) (hr : n.isRed = false) (q : Ptr) :
    eraseColor h (ptr n) q = (eraseColorBody h (ptr n) q).bind (fun r => match r.2 with
      | some q => eraseColor r.1 q.1 q.2
      | none => setBlackIf r.1 r.1.root) := by
  rw [eraseColor]
  have := root_ne hi
  simp only [Option.bind_eq_bind, hi.isRed, Option.bind_some, hr, ne_eq, this, not_false_eq_true, and_self, if_true]
  rfl

theorem eraseLeft_up_red {n o t : Tree (Ptr × δ)} {c : Color} {px : Ptr × δ} (he : RB.eraseLeft n c px o = some (.up t)) : t.isRed = (c == .red) := by
  cases o with
  | nil => simp [RB.eraseLeft] at he
  | node oc ol ox or =>
    simp only [RB.eraseLeft] at he
    repeat' (split at he)
    all_goals simp at he
    subst he; cases c <;> rfl

theorem eraseRight_up_red {n o t : Tree (Ptr × δ)} {c : Color} {px : Ptr × δ} (he : RB.eraseRight n c px o = some (.up t)) : t.isRed = (c == .red) := by
  cases o with
  | nil => simp [RB.eraseRight] at he
  | node oc ol ox or =>
    simp only [RB.eraseRight] at he
    repeat' (split at he)
    all_goals simp at he
    subst he; cases c <;> rfl

set_option maxHeartbeats 1000000 in
/-- **`__rb_erase_color` does on the heap what the functional model does on the tree.** -/
theorem eraseColor_refines (p : Path (Ptr × δ)) : ∀ (h : Heap δ) (n t' : Tree (Ptr × δ)), Is h (zip p n) → RB.eraseColor n p = some t' →
    ∃ h', eraseColor h (ptr n) (top p) = some h' ∧ To h (zip p n) h' t' := by
  induction p with
  | nil =>
    intro h n t' hi he
    simp only [RB.eraseColor, Option.some.injEq] at he
    subst he
    exact eraseColor_top hi _
  | cons f p ih =>
    intro h n t' hi he
    cases f with
    | left pc px o =>
      rw [RB.eraseColor.eq_def] at he
      simp only at he
      cases hr : n.isRed
      · rw [hr] at he
        simp only [Bool.false_eq_true, if_false] at he
        rw [eraseColor_pass hi hr]
        obtain ⟨wp, l1, _, _⟩ := Is.load (p := p) (h := h) (c := pc) (l := n) (x := px) (r := o) (by exact hi)
        cases o with
        | nil => simp at he
        | node oc ol ox or =>
          obtain ⟨wo, l2, _, k2⟩ := Is.load (p := .right pc n px :: p) (h := h) (c := oc) (l := ol) (x := ox) (r := or) (by exact hi)
          unfold eraseColorBody
          simp only [top_left, l1, ptr_node, Option.bind_eq_bind, Option.bind_some, if_true, l2, k2]
          cases oc with
          | red =>
            simp only [if_true]
            simp only at he
            obtain ⟨h1, f1, t1⟩ := Is.setBlack (p := .right pc n px :: p) (h := h) (by exact hi)
            obtain ⟨h2, f2, t2⟩ := Is.setRed (p := p) (h := h1) (by exact t1.is)
            obtain ⟨h3, f3, t3⟩ := Is.rotateLeft (p := p) (h := h2) (by exact t2.is)
            obtain ⟨w3, l3, _, _⟩ := Is.load (p := .left .black ox or :: p) (h := h3) (c := .red) (l := n) (x := px) (r := ol) (by exact t3.is)
            have t123 := (t1.trans t2).trans t3
            simp only [f1, f2, f3, l3, Option.bind_some]
            split at he
            · cases he
            · rename_i t hs
              simp only [Option.some.injEq] at he
              subst he
              obtain ⟨h4, f4, t4, e4⟩ := eraseLeft_refines (p := .left .black ox or :: p) (h := h3) (by exact t3.is) hs
              obtain ⟨h5, f5, t5⟩ := eraseColor_red t4.is (by rw [eraseLeft_up_red hs]; rfl) (top (.left .black ox or :: p))
              rw [e4] at f5
              refine ⟨h5, ?_, (t123.trans t4).trans t5⟩
              simp only [f4, Option.bind_some, f5]
            · rename_i t hs
              simp only [Option.some.injEq] at he
              subst he
              obtain ⟨h4, f4, t4, e4⟩ := eraseLeft_refines (p := .left .black ox or :: p) (h := h3) (by exact t3.is) hs
              obtain ⟨h5, f5, t5⟩ := t4.is.setBlackIfRoot
              refine ⟨h5, ?_, (t123.trans t4).trans t5⟩
              simp only [f4, Option.bind_some, f5]
          | black =>
            simp only [reduceCtorEq, if_false]
            simp only at he
            split at he
            · cases he
            · rename_i t hs
              obtain ⟨h4, f4, t4, e4⟩ := eraseLeft_refines (p := p) (h := h) (by exact hi) hs
              obtain ⟨h5, f5, t5⟩ := ih h4 t t' t4.is he
              rw [e4] at f5
              rw [ptr_node] at f4
              refine ⟨h5, ?_, t4.trans t5⟩
              simp only [f4, Option.bind_some, f5]
            · rename_i t hs
              simp only [Option.some.injEq] at he
              subst he
              obtain ⟨h4, f4, t4, e4⟩ := eraseLeft_refines (p := p) (h := h) (by exact hi) hs
              obtain ⟨h5, f5, t5⟩ := t4.is.setBlackIfRoot
              rw [ptr_node] at f4
              refine ⟨h5, ?_, t4.trans t5⟩
              simp only [f4, Option.bind_some, f5]
      · rw [hr] at he
        simp only [if_true, Option.some.injEq] at he
        subst he
        exact eraseColor_red hi hr _
    | right pc o px =>
      rw [RB.eraseColor.eq_def] at he
      simp only at he
      cases hr : n.isRed
      · rw [hr] at he
        simp only [Bool.false_eq_true, if_false] at he
        rw [eraseColor_pass hi hr]
        obtain ⟨wp, l1, _, _⟩ := Is.load (p := p) (h := h) (c := pc) (l := o) (x := px) (r := n) (by exact hi)
        cases o with
        | nil => simp at he
        | node oc ol ox or =>
          obtain ⟨wo, l2, _, k2⟩ := Is.load (p := .left pc px n :: p) (h := h) (c := oc) (l := ol) (x := ox) (r := or) (by exact hi)
          have hne : ox.1 ≠ ptr n := by
            have hn := hi.nodup
            simp only [pathAddrs, addrs_node, List.nodup_append, List.nodup_cons, List.mem_append, List.mem_cons] at hn
            have h0 : ox.1 ≠ 0 := ptr_ne (h := h) (p := .left pc px n :: p) (t := .node oc ol ox or) (by simp) (by exact hi)
            exact Ne.symm (ptr_ne_of_mem h0 (by grind))
          unfold eraseColorBody
          simp only [top_right, l1, ptr_node, Option.bind_eq_bind, Option.bind_some, hne, if_false, l2, k2]
          cases oc with
          | red =>
            simp only [if_true]
            simp only at he
            obtain ⟨h1, f1, t1⟩ := Is.setBlack (p := .left pc px n :: p) (h := h) (by exact hi)
            obtain ⟨h2, f2, t2⟩ := Is.setRed (p := p) (h := h1) (by exact t1.is)
            obtain ⟨h3, f3, t3⟩ := Is.rotateRight (p := p) (h := h2) (by exact t2.is)
            obtain ⟨w3, l3, _, _⟩ := Is.load (p := .right .black ol ox :: p) (h := h3) (c := .red) (l := or) (x := px) (r := n) (by exact t3.is)
            have t123 := (t1.trans t2).trans t3
            simp only [f1, f2, f3, l3, Option.bind_some]
            split at he
            · cases he
            · rename_i t hs
              simp only [Option.some.injEq] at he
              subst he
              obtain ⟨h4, f4, t4, e4⟩ := eraseRight_refines (p := .right .black ol ox :: p) (h := h3) (by exact t3.is) hs
              obtain ⟨h5, f5, t5⟩ := eraseColor_red t4.is (by rw [eraseRight_up_red hs]; rfl) (top (.right .black ol ox :: p))
              rw [e4] at f5
              refine ⟨h5, ?_, (t123.trans t4).trans t5⟩
              simp only [f4, Option.bind_some, f5]
            · rename_i t hs
              simp only [Option.some.injEq] at he
              subst he
              obtain ⟨h4, f4, t4, e4⟩ := eraseRight_refines (p := .right .black ol ox :: p) (h := h3) (by exact t3.is) hs
              obtain ⟨h5, f5, t5⟩ := t4.is.setBlackIfRoot
              refine ⟨h5, ?_, (t123.trans t4).trans t5⟩
              simp only [f4, Option.bind_some, f5]
          | black =>
            simp only [reduceCtorEq, if_false]
            simp only at he
            split at he
            · cases he
            · rename_i t hs
              obtain ⟨h4, f4, t4, e4⟩ := eraseRight_refines (p := p) (h := h) (by exact hi) hs
              obtain ⟨h5, f5, t5⟩ := ih h4 t t' t4.is he
              rw [e4] at f5
              rw [ptr_node] at f4
              refine ⟨h5, ?_, t4.trans t5⟩
              simp only [f4, Option.bind_some, f5]
            · rename_i t hs
              simp only [Option.some.injEq] at he
              subst he
              obtain ⟨h4, f4, t4, e4⟩ := eraseRight_refines (p := p) (h := h) (by exact hi) hs
              obtain ⟨h5, f5, t5⟩ := t4.is.setBlackIfRoot
              rw [ptr_node] at f4
              refine ⟨h5, ?_, t4.trans t5⟩
              simp only [f4, Option.bind_some, f5]
      · rw [hr] at he
        simp only [if_true, Option.some.injEq] at he
        subst he
        exact eraseColor_red hi hr _

end Kasync.RBHeap
